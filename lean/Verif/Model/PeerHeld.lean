import Verif.Model.PeerNet
/-!
The connection handles in the tables of a PeerNetwork (include/salticidae/network.h:433, 442-444, 496-500) on top of Model/PeerNet, for the question how
long a connection that has been torn down is kept in memory.

Simplified: closures that call the peer callback (924-926, 864) hold the connection until the user's loop has run them; that is in no table and not counted here,
and neither are the pool's own handles (Model/ConnRef).  `ev_timeout` of a connection, whose callback holds the connection itself (761-771), is cleared by
on_worker_teardown (774-778), before the teardown.
-/
namespace Salticidae
namespace PeerNet

/-- `conn`, `chosen_conn`, `inbound_conn` or `outbound_conn` of a Peer, network.h:433, 442-444. -/
def Peer.holds (x : Peer) (c : Nat) : Bool := x.conn = c || x.chosen = some c || x.inbound = some c || x.outbound = some c

/-- Some table of the network holds `c`: a Peer in known_peers, pending_peers, or a handshake that was put off (network.h:496-500, 855-861). -/
def held (s : St) (c : Nat) : Bool :=
  s.known.any (fun e => (s.peers e.2).holds c) || s.pending.any (fun e => e.2 = c) || s.posted.any (fun e => e.2 = some c)

end PeerNet
end Salticidae
