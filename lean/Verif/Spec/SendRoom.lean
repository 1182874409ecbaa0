import Verif.Model.SendRoom
/-!
Specification for C123: how much can be sent to a peer before there is a connection.
-/
namespace Salticidae
open Queue Spec.Queue
namespace Spec.SendRoom

/-- The history of a send buffer: it is made as Config::max_send_buff_size(c) and the origin of the connection have it, before everything else. -/
def Made (c : Nat) (b : Salticidae.SendRoom.Born) (l : List (Ev Nat)) : Prop :=
  ∃ l0 l1, l = l0 ++ l1 ∧ Quiet l0 ∧ (∀ i x, .call i x ∈ l0 → x = .add) ∧ blocks l0 = Salticidae.SendRoom.given c b ∧ blocks l1 = 0

/-- Nothing is sent yet: besides the making of the buffer there are only calls of write. -/
def Waiting (c : Nat) (acts : List (Act Nat)) : Prop :=
  ∀ i x, .start i x ∈ acts → x = .add ∨ ∃ m, x = Salticidae.SendRoom.write c m

end Spec.SendRoom
end Salticidae
