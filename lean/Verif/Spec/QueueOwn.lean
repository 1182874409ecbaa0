import Verif.Model.QueueOwn
import Verif.Spec.QueueGone
/-!
Specification for C128.
-/
namespace Salticidae
namespace Spec.QueueOwn
open Salticidae.Queue Spec.QueueGone

/-- After the steps acts, which lead to s: no element was overwritten; no element was moved from twice, or before it was there; and if no operation is running and the queue is destroyed,
the elements that are destroyed with it are those in it, each once. -/
def Kept {α : Type} [DecidableEq α] (B : Nat) (acts : List (Act α)) (s : St α) : Prop :=
  let o := Salticidae.QueueOwn.run B (init α) .init acts
  o.lost = [] ∧ o.hollow = false ∧
    (AllIdle s → ∀ (i : Nat) (chs : List Bool), (Salticidae.QueueGone.run i (Salticidae.QueueGone.start s) chs).pc = .ended →
      ∃ q, Spec.Queue.replay Spec.Queue.empty s.log = some q ∧ (o.destroyed B (Salticidae.QueueGone.run i (Salticidae.QueueGone.start s) chs).gone).Perm q.q)

end Spec.QueueOwn
end Salticidae
