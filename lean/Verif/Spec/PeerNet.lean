import Verif.Model.PeerNet
/-!
What a user of PeerNetwork is told, read off the history of events and the reports.
-/
namespace Salticidae
namespace Spec.PeerNet
open Salticidae.PeerNet

/-- Is `pid` a member after the history `l`: the last `add_peer(pid)` or `del_peer(pid)` was an `add_peer`. -/
def member (pid : Nat) (l : List Act) : Bool :=
  l.foldl (fun b a => match a with
    | .addPeer q => if q = pid then true else b
    | .delPeer q => if q = pid then false else b
    | _ => b) false

/-- The address of the member `pid` after the history `l`: the last one given to `set_peer_addr` since it was added, 0 when there is
none; `none` when `pid` is not a member. -/
def book (pid : Nat) (l : List Act) : Option Nat :=
  l.foldl (fun r a => match a with
    | .addPeer q => if q = pid then (if r = none then some 0 else r) else r
    | .delPeer q => if q = pid then none else r
    | .setAddr q v => if q = pid then r.map (fun _ => v) else r
    | _ => r) none

/-- Connections know their peers, in `s` after the history `l`:
1. asking a connection for its peer is never undefined behaviour;
2. the connection of a member is one whose peer is that member, with the address that was set;
3. a connection whose peer is a member is the connection of that member. -/
def Names (l : List Act) (s : St) : Prop :=
  (∀ c, c < s.n → named s c ≠ .ub) ∧
  (∀ pid c, getPeerConn s pid = some c → ∃ v, book pid l = some v ∧ named s c = .peer pid v) ∧
  (∀ c pid v, named s c = .peer pid v → getPeerConn s pid = some c)

/-- A connection from outside that has been set up, has not been torn down and whose handshake has not been completed. -/
def Waiting (s : St) (c : Nat) : Bool :=
  !(s.conns c).active && (s.conns c).setUp && !(s.conns c).torn && !s.cbs.contains (c, true)

/-- How many connections wait for a handshake. -/
def waiting (s : St) : Nat := (List.range s.n).countP (Waiting s)

/-- No other connection has the address of one that came from outside (the placeholder of `add_peer` has the null
address). -/
def DistinctAddrs (s : St) : Prop :=
  ∀ c d, c < s.n → d < s.n → c ≠ d → (s.conns c).active = false → (s.conns c).addr ≠ 0 →
    (s.conns c).addr ≠ (s.conns d).addr

/-- The identity that a handshake message, when it is processed in `s`, is about; `none` when `a` is not the
processing of one.  The second component is the connection it came from. -/
def identity (g : Cfg) (s : St) : Act → Option (Nat × Nat)
  | .ping c h _ => if h.claimed ≠ 0 ∧ (s.conns c).active = false then some (pidOf g (s.conns c) h.claimed, c) else none
  | .deferred _ => match s.posted with
    | (h, some c) :: _ => if h.claimed ≠ 0 ∧ (s.conns c).active = false then some (pidOf g (s.conns c) h.claimed, c) else none
    | _ => none
  | .pong c h _ => if h.claimed ≠ 0 ∧ (s.conns c).active = true then some (pidOf g (s.conns c) (s.conns c).addr, c) else none
  | _ => none

/-- What the peer callback was told last about connection `c`. -/
def lastReport (s : St) (c : Nat) : Option Bool := ((s.cbs.filter (fun e => e.1 = c)).getLast?).map (·.2)

/-- An orderly history, step by step.  Each connection speaks for one identity, `who c`, and a dialled one reaches the peer that
was dialled; no handshake is completed over a connection that the user opened with `connect(addr)`; when a handshake
with a disconnected peer is processed or a peer is deleted, no earlier dial to that peer is still waiting to be torn down. -/
def Orderly (who : Nat → Nat) (g : Cfg) (s : St) (a : Act) : Prop :=
  (∀ p, a = .retry p → who s.n = (s.peers p).id) ∧
  (∀ pid p, a = .delPeer pid → find s pid = some p → ∀ d, (s.conns d).torn = false → (s.conns d).peer = some p →
    d = (s.peers p).conn ∨ (s.peers p).outbound = some d) ∧
  (∀ pid c, identity g s a = some (pid, c) → pid = who c ∧ ((s.conns c).active = true → (s.conns c).manual = false) ∧
    ∀ p, find s pid = some p → (s.peers p).state = .disconnected → ∀ d, (s.conns d).torn = false →
      (s.conns d).peer = some p → d = c ∨ ((s.conns c).active = false ∧ (s.peers p).outbound = some d))

/-- A polite history, step by step: a heartbeat answer comes only over a connection that was reported connected, and the user does
not call conn_peer for a peer whose connection is being replaced by a new one from that peer. -/
def Polite (s : St) (a : Act) : Prop :=
  (∀ c h d, a = .pong c h d → h.claimed = 0 → (c, true) ∈ s.cbs) ∧
  (∀ pid n p, a = .connPeer pid n → find s pid = some p → (s.peers p).preempt = none)

/-- The peers' states follow their connections, in `s`:
1. a connection reported connected by the next step is the connection of a member;
2. a member whose connection has been torn down is not reported connected any more;
3. the teardown of any other connection leaves a member that is reported connected as it is;
4. a member whose connection has been torn down is connected by any handshake that its nonce lets win. -/
def Follows (g : Cfg) (s : St) : Prop :=
  (∀ a t c, step g s a = some t → t.cbs = s.cbs ++ [(c, true)] →
    ∃ pid, identity g s a = some (pid, c) ∧ getPeerConn t pid = some c) ∧
  ∀ pid p, find s pid = some p → ∀ k, getPeerConn s pid = some k →
    ((s.conns k).torn = true → lastReport s k ≠ some true) ∧
    (lastReport s k = some true → ∀ c t, c ≠ k → step g s (.teardown c) = some t →
      t.peers p = s.peers p ∧ getPeerConn t pid = some k ∧ lastReport t k = some true) ∧
    ((s.conns k).torn = true → ∀ c h draw, c < s.n → (s.conns c).setUp = true → (s.conns c).term = false →
      (s.conns c).active = false → h.claimed ≠ 0 → h.nonce ≠ 0 → pidOf g (s.conns c) h.claimed = pid →
      h.nonce < (getNonce (s.peers p) draw).nonce ∨ (s.peers p).addr = 0 →
      ∃ t, step g s (.ping c h draw) = some t ∧ getPeerConn t pid = some c ∧ lastReport t c = some true)

/-- In this step no new connection from a peer that is connected asks to replace the old one. -/
def NoTakeover (g : Cfg) (s : St) (a : Act) : Prop :=
  ∀ pid c p, identity g s a = some (pid, c) → (s.conns c).active = false → find s pid = some p → (s.peers p).state ≠ .connected

/-- The connections reported connected so far. -/
def successes (s : St) : List (Nat × Bool) := s.cbs.filter (·.2)

end Spec.PeerNet
end Salticidae
