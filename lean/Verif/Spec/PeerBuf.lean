import Verif.Model.PeerBuf
/-!
What a user expects of a reconnection: the new connection is given the messages that were accepted while there was none, in order,
and nothing that is not a message.
-/
namespace Salticidae
namespace Spec.PeerBuf
open Salticidae.PeerBuf

/-- A whole message: of the user, accepted by send_msg, or of the library. -/
def Whole (s : St) (m : Seg) : Prop := m ∈ s.accepted ∨ m ∈ s.lib

/-- When connection `n` takes over in state `s`. -/
def TakesOver (s : St) (n : Nat) : Prop :=
  s.waiting.Sublist (s.conns n).got ∧ (∀ m ∈ (s.conns n).got, Whole s m) ∧
  (s.conns n).wire ++ (s.conns n).queue.flatten = (s.conns n).got.flatten

/-- A connection is lost between messages, never in the middle of one. -/
def BetweenMessages (s : St) : Act → Prop
  | .die c => (s.conns c).cut = false
  | _ => True

/-- A message is written to the connection the peer has, and not between the end of the loop that moves the messages and the
take-over. -/
def NotRacing (s : St) : Act → Prop
  | .put i _ => s.drained = false ∧ ∀ m c, s.calls[i]? = some (m, c) → c = s.cur
  | _ => True

/-- The new connection's send buffer has room for the messages moved to it. -/
def Room : Act → Prop
  | .drain ok => ok = true
  | _ => True

instance (s : St) (a : Act) : Decidable (BetweenMessages s a) := by cases a <;> unfold BetweenMessages <;> infer_instance
instance (a : Act) : Decidable (Room a) := by cases a <;> unfold Room <;> infer_instance

end Spec.PeerBuf
end Salticidae
