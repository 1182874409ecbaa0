import Verif.Model.ThreadCall
/-
Specification of ThreadCall: what its users should see.
-/
namespace Salticidae
namespace Spec.TC
open Salticidae.TC

/-- What a call yields when it is run: its own value or its own exception. -/
def own (c : Call) : Res := match c.out with
  | .ret v => .ok v
  | .throws e => .error e

/-- The results synchronous callers get when exactly these calls are run in this order. -/
def results : List Call → List (Nat × Res)
  | [] => []
  | c :: cs => if c.sync = true then (c.id, own c) :: results cs else results cs

end Spec.TC
end Salticidae
