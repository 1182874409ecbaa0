import Verif.Model.Sys
/-!
Words for the life of a network.
-/
namespace Salticidae
namespace Spec.Sys
open Salticidae.Sys

/-- The calls that wait, in the order in which they were made. -/
def asked : List Act → List Nat
  | [] => []
  | .call c _ :: as => c :: asked as
  | _ :: as => asked as

/-- No loop has anything left to do. -/
def Rest (s : St) : Prop := s.user = [] ∧ ∀ i < s.n, (s.loops i).phase = .runs → (s.loops i).q = [] ∧ (s.loops i).ending = false

/-- Steps of the network's own threads and of the thread in `stop`. -/
def own : Act → Bool
  | .run _ => true
  | .exit => true
  | .quit _ => true
  | .join => true
  | _ => false

/-- How far a worker is from its end: closures before the one that stops it. -/
def wait (l : Loop) : Nat :=
  if l.phase = .ended then 0 else if l.ending then 1 else 2 + l.q.idxOf .stop

/-- How far `stop` is from returning: which join it is in, and how far what it waits for is from its end. -/
def left (s : St) : Nat × Nat :=
  match s.pc with
  | .joinDisp => (1, if (s.loops 0).phase = .ended then 0 else if (s.loops 0).ending then 1 else 2)
  | .joinWorkers => (0, 1 + ((List.range s.n).map fun i => wait (s.loops i)).sum)
  | _ => (0, 0)

def Less (a b : Nat × Nat) : Prop := a.1 < b.1 ∨ (a.1 = b.1 ∧ a.2 < b.2)

end Spec.Sys
end Salticidae
