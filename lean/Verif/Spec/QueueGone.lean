import Verif.Model.QueueGone
import Verif.Spec.Queue
/-!
Specification for C127.
-/
namespace Salticidae
namespace Spec.QueueGone
open Salticidae.Queue

/-- No thread is in an operation of the queue. -/
def AllIdle {α : Type} (s : St α) : Prop := ∀ j, ∃ r, s.pc j = .idle r

/-- The queue is destroyed, by thread i, without undefined behaviour, whichever of the compare-exchanges fail for no reason; once they do not, the destructor returns;
and then it has deleted each block that was ever allocated exactly once. -/
def Destroyed {α : Type} (s : St α) : Prop :=
  ∀ (i : Nat) (chs : List Bool),
    let d := Salticidae.QueueGone.run i (Salticidae.QueueGone.start s) chs
    d.pc ≠ .ub ∧ (d.pc = .ended → d.gone.Nodup ∧ ∀ u, u ∈ d.gone ↔ u < s.fl.alloc) ∧
      ∃ n, (Salticidae.QueueGone.run i (Salticidae.QueueGone.start s) (chs ++ List.replicate n true)).pc = .ended

end Spec.QueueGone
end Salticidae
