import Verif.Model.PeerNet
/-
Two PeerNetwork nodes that talk to each other: two copies of Model/PeerNet whose handshake messages are the
ones that the other node sent, in order, over the connections between them.

The nodes are `true` and `false`.  Both know each other; connection 0 of a node is the placeholder of add_peer.

Simplified: no timer fires and no user call is made while the handshakes are being processed; a connection is lost only
when one of its ends asked for it (disp_terminate) or the other end has gone (end of file on the socket).
-/
namespace Salticidae
namespace PeerPair
open PeerNet

/-- What is fixed for the pair: the identity mode with its hash functions, the nodes' addresses, certificates and the local
ports of the sockets they dial from. -/
structure Pair where
  certMode : Bool
  hashAddr : Nat → Nat
  hashCert : Nat → Nat
  addr : Bool → Nat
  cert : Bool → Nat
  port : Bool → Nat

/-- The PeerId of a node: PeerId(addr) or PeerId(cert), network.h:324-330. -/
def Pair.pid (P : Pair) (s : Bool) : Nat := if P.certMode then P.hashCert (P.cert s) else P.hashAddr (P.addr s)

/-- The configuration of a node. -/
def Pair.cfg (P : Pair) (s : Bool) : Cfg := ⟨P.certMode, P.hashAddr, P.hashCert, P.addr s⟩

/-- The state of the pair: the nodes, and how many messages each has processed on each of its connections. -/
structure Net where
  node : Bool → St
  got : Bool → Nat → Nat

inductive Act where
  | deliver (s : Bool) (c : Nat) (draw : BitVec 16)
  | lost (s : Bool) (c : Nat)
  | teardown (s : Bool) (c : Nat)
  | deferred (s : Bool) (draw : BitVec 16)
  deriving DecidableEq, Repr

def setNode (n : Net) (s : Bool) (x : St) : Net := { n with node := fun t => if t = s then x else n.node t }

/-- The message that node `s` processes next on connection `c`; `mate s c` is the number of `c` at the other end. -/
def next (mate : Bool → Nat → Nat) (n : Net) (s : Bool) (c : Nat) : Option Msg :=
  ((n.node (!s)).conns (mate s c)).out[n.got s c]?

/-- The step that the processing of a message is: ping_handler and pong_handler, network.h:991-1154. -/
def handle (c : Nat) (draw : BitVec 16) : Msg → PeerNet.Act
  | .ping h => .ping c h draw
  | .pong h => .pong c h draw

/-- One step of the pair. -/
def step (P : Pair) (mate : Bool → Nat → Nat) (n : Net) : Act → Option Net
  | .deliver s c draw =>
    match next mate n s c with
    | none => none
    | some m => (PeerNet.step (P.cfg s) (n.node s) (handle c draw m)).map (fun x =>
        { setNode n s x with got := fun t d => if t = s ∧ d = c then n.got t d + 1 else n.got t d })
  | .lost s c =>
    if ((n.node s).conns c).asked ∨ ((n.node (!s)).conns (mate s c)).term then
      (PeerNet.step (P.cfg s) (n.node s) (.lost c)).map (setNode n s)
    else none
  | .teardown s c => (PeerNet.step (P.cfg s) (n.node s) (.teardown c)).map (setNode n s)
  | .deferred s draw => (PeerNet.step (P.cfg s) (n.node s) (.deferred draw)).map (setNode n s)

def run (P : Pair) (mate : Bool → Nat → Nat) : Net → List Act → Option Net
  | n, [] => some n
  | n, a :: as => (step P mate n a).bind (fun n => run P mate n as)

def trace (P : Pair) (mate : Bool → Nat → Nat) : Net → List Act → List (Net × Act)
  | _, [] => []
  | n, a :: as => (n, a) :: (match step P mate n a with
    | some n' => trace P mate n' as
    | none => [])

/-! Crossing: both nodes dial.  At each node connection 1 is the one it dialled and 2 the one it accepted. -/

def crossMate : Bool → Nat → Nat := fun _ c => 3 - c

/-- What node `s` has done before the first handshake message is processed: add_peer, set_peer_addr, conn_peer with `ntry`
attempts, the first dial; a connection from the other node; both are set up.  `draw` gives its nonce. -/
def crossPrefix (P : Pair) (s : Bool) (ntry : Int) (draw : BitVec 16) : List PeerNet.Act :=
  [.addPeer (P.pid (!s)), .setAddr (P.pid (!s)) (P.addr (!s)), .connPeer (P.pid (!s)) ntry, .retry 0,
   .accept (P.port (!s)) (P.cert (!s)), .established 1 (P.cert (!s)) draw, .established 2 0 0#16]

/-! One-sided: node `true` dials, node `false` has added it without an address.  At each node the connection is number 1. -/

def soloMate : Bool → Nat → Nat := fun _ c => c

def soloPrefix (P : Pair) (s : Bool) (ntry : Int) (draw : BitVec 16) : List PeerNet.Act :=
  if s then [.addPeer (P.pid false), .setAddr (P.pid false) (P.addr false), .connPeer (P.pid false) ntry, .retry 0,
    .established 1 (P.cert false) draw]
  else [.addPeer (P.pid true), .accept (P.port true) (P.cert true), .established 1 0 0#16]

/-- The state after what the nodes did before. -/
def Start (P : Pair) (pre : Bool → List PeerNet.Act) (n : Net) : Prop :=
  (∀ s, PeerNet.run (P.cfg s) init (pre s) = some (n.node s)) ∧ ∀ s c, n.got s c = 0

end PeerPair
end Salticidae
