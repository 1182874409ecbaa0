import Verif.Model.FreeList
/-!
What a free list is: a node is with its owner from its creation, or from the pop that returns it, until it is pushed.
-/
namespace Salticidae
namespace Spec.FreeList
open Salticidae.FreeList

inductive Where where
  | absent | used | free | wrong
  deriving DecidableEq, Repr

/-- Where node `u` is after an event, given where it was. -/
def after (u : Nat) (w : Where) : Ev → Where
  | .new v => if v = u then (if w = .absent then .used else .wrong) else w
  | .push v => if v = u then (if w = .used then .free else .wrong) else w
  | .pop v => if v = u then (if w = .free then .used else .wrong) else w

/-- Where node `u` is after a history. -/
def place (u : Nat) (log : List Ev) : Where := log.foldl (after u) .absent

/-- The nodes reached from `t` by the next pointers are `l`, and there the list ends. -/
def Linked (next : Nat → Option Nat) : Option Nat → List Nat → Prop
  | t, [] => t = none
  | t, u :: l => t = some u ∧ Linked next (next u) l

/-- Thread `i` is busy with node `u`: it holds a reference to it, or is in the middle of an operation on it. -/
def Busy (s : St) (i u : Nat) : Prop := u ∈ s.held i ∨ (s.idle i = false ∧ ((∃ b k, s.pc i = .rel u b k) ∨ (∃ k, s.pc i = .put1 u k) ∨
  (∃ t k, s.pc i = .put2 u t k) ∨ (∃ t k, s.pc i = .put3 u t k) ∨ s.pc i = .push u ∨ s.pc i = .pop4 u ∨ ∃ t, s.pc i = .pop5 u t))

end Spec.FreeList
end Salticidae
