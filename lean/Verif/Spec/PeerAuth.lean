import Verif.Spec.PeerNet
/-!
Words used by the properties of certificates on a PeerNetwork.
-/
namespace Salticidae
namespace Spec.PeerAuth
open Salticidae.PeerNet

/-- The certificate that the other side of the connection `c` has shown (get_peer_cert()) is the one that the identity `pid` is made from. -/
def Shown (g : Cfg) (s : St) (c pid : Nat) : Prop := g.hashCert (s.conns c).cert = pid

/-- `c` is a connection that was dialled or accepted, and not the object that stands for the connection of a peer that has never been connected. -/
def Opened (s : St) (c : Nat) : Prop := (s.conns c).active = true ∨ (s.conns c).addr ≠ 0

/-- The peer callback was told that `c` is connected. -/
def Reported (s : St) (c : Nat) : Prop := (c, true) ∈ s.cbs

/-- A connection that is set up, so that messages may come from it, and that nobody has asked to close. -/
def InUse (s : St) (c : Nat) : Prop := c < s.n ∧ (s.conns c).setUp = true ∧ (s.conns c).asked = false ∧ (s.conns c).term = false

/-- `c` is the connection of the member `pid`, which is connected. -/
def Serves (s : St) (pid c : Nat) : Prop := getPeerConn s pid = some c ∧ Opened s c ∧ ∃ p, find s pid = some p ∧ (s.peers p).state = .connected

/-- If the step is the answer to the dial of a peer, the one who answers shows the certificate of that peer. -/
def DialReaches (g : Cfg) (s : St) (a : Act) : Prop :=
  ∀ d cert y p, a = .established d cert y → (s.conns d).active = true → (s.conns d).peer = some p → (s.peers p).freed = false → g.hashCert cert = (s.peers p).id

/-- The step is a reason to close the connection of `pid`: the user deletes the peer or dials it again, or a handshake comes over a connection whose other side has shown the certificate of that peer. -/
def Reason (g : Cfg) (s : St) (pid : Nat) (a : Act) : Prop :=
  a = .delPeer pid ∨ (∃ n, a = .connPeer pid n) ∨ ∃ d h y, ((a = .ping d h y) ∨ (a = .deferred y ∧ (h, some d) ∈ s.posted)) ∧ h.claimed ≠ 0 ∧ Shown g s d pid

end Spec.PeerAuth
end Salticidae
