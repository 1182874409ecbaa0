import Verif.Model.PeerIdle
/-!
C115: connections over which heartbeats are answered.
-/
namespace Salticidae
namespace Spec.PeerIdle
open Salticidae.PeerIdle

/-- Connection `c`, if it has been set up, was set up or sent a heartbeat over at most `R` ago; or it is the connection of a peer that is connected and that is
not behind with its answer by more than `R`. -/
def Prompt (R : Nat) (u : St) (c : Nat) : Prop := ∀ r, u.last c = some r →
  u.now ≤ r + R ∨ ∃ pid p, PeerNet.find u.net pid = some p ∧ (u.net.peers p).state = .connected ∧ (u.net.peers p).conn = c ∧
    ((u.net.peers p).pongOk = some false → u.now ≤ u.sent p + R)

end Spec.PeerIdle
end Salticidae
