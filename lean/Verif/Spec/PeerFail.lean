import Verif.Model.PeerFail
/-!
Words used by the property of attempts that fail.
-/
namespace Salticidae
namespace Spec.PeerFail
open Salticidae.PeerFail

/-- What the program can see of the peers: who is a member, which of them are connected and over which connections, and what the peer callback has been told. -/
def Same (s t : FSt) : Prop :=
  t.net.known = s.net.known ∧ t.net.cbs = s.net.cbs ∧ ∀ p, (t.net.peers p).state = (s.net.peers p).state ∧ (t.net.peers p).conn = (s.net.peers p).conn ∧
    (t.net.peers p).addr = (s.net.peers p).addr

/-- An attempt to reach the peer `p`, made in `s` with the result `t`, is harmless: there is no fatal error, the network goes on, the peers are what they were, and the next attempt is planned. -/
def Harmless (s t : FSt) (p : Nat) : Prop :=
  t.fatal = s.fatal ∧ t.dead = s.dead ∧ Same s t ∧ (t.net.peers p).retryArmed = true

end Spec.PeerFail
end Salticidae
