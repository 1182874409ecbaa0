import Verif.Model.SyncCall
/-!
What a synchronous call promises.
-/
namespace Salticidae
namespace Spec.SyncCall
open Salticidae.SyncCall

/-- The result after an operation of a callback, if it was `r` before. -/
def after (r : Option Nat) : CbOp → Option Nat
  | .set v => some v
  | .sync => r

/-- The result of a callback: the exception it threw, or the last result it set. -/
def result (cb : Callback) : Got :=
  match cb.throws with
  | some e => .error e
  | none => .value (cb.ops.foldl after none)

/-- Both threads are through. -/
def Finished (s : St) : Prop := s.pc = .done ∧ s.todo = []

end Spec.SyncCall
end Salticidae
