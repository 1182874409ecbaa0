import Verif.Model.Notify
/-
What a notifier is for, for C110.
-/
namespace Salticidae
namespace Spec.Notify
open Salticidae.Notify

/-- There has been a notification, and no reset after it. -/
def Pending (ops : List Op) : Prop := ∃ pre post, ops = pre ++ .notify :: post ∧ .reset ∉ post

/-- The same of system calls: since the last reset has ended (by a read that found nothing), something has been written. -/
def PendingSys (log : List (Sys × Out)) : Prop := ∃ pre post, log = pre ++ (.write, .ok) :: post ∧ (.read, .again) ∉ post

/-- No reset is going on: the last read, if any, was the last one of a reset. -/
def Quiet (log : List (Sys × Out)) : Prop :=
  ∀ pre o post, log = pre ++ (.read, o) :: post → (∀ p, (.read, p) ∉ post) → o = .again

/-- The calls of `enqueue` that have not returned. -/
def active {α : Type} (s : EvQ.St α) : Nat := s.prods.countP (fun p => match p with | .done _ => false | _ => true)

end Spec.Notify
end Salticidae
