import Verif.Model.PeerNet
/-!
The timeout of the connections of a PeerNetwork, with time: every connection has a timer `ev_timeout` in the loop of its worker
(include/salticidae/network.h:367, 756-772), which terminates it; tcall_reset_timeout (743-753) has the worker start the timer anew.
The dispatcher calls it when a connection is set up (792) and each time it sends a heartbeat (Peer::send_ping, 889-895), which it does when its peer's timer
`ev_ping_timer` has fired and the peer has answered (882-905).  Everything that the dispatcher does is Model/PeerNet; this model adds the time, the timers, and
what arrives.

Time is a number (of milliseconds, say).  A call posted to the worker and a timer that is due are executed late, by at most `lag`: time does not go past that.

Simplified: libuv's cached loop time is the time; the steps of dispatcher and worker are atomic; that a worker which has terminated a connection clears
its timer (774-778) is said by `term`.
-/
namespace Salticidae
namespace PeerIdle

/-- The node; conn_timeout (network.h:555-590); the longest time that gen_rand_timeout(ping_period) gives (882-886, util.cpp:109-111: 1.5 times
ping_period); the delay of the event loops. -/
structure Cfg where
  net : PeerNet.Cfg
  timeout : Nat
  ping : Nat
  lag : Nat

structure St where
  net : PeerNet.St
  now : Nat
  req : Nat → List Nat     -- per connection: the calls of tcall_reset_timeout that the worker has not executed, with their times
  due : Nat → Option Nat   -- per connection: when ev_timeout is due, once it has been started
  tick : Nat → Option Nat  -- per peer: when ev_ping_timer is due, once it has been started
  heard : Nat → Option Nat -- ghost: when something arrived over the connection last
  last : Nat → Option Nat  -- ghost: when tcall_reset_timeout was called last for the connection
  done : Nat → Option Nat  -- ghost: when the call of it was made that the worker executed last
  sent : Nat → Nat         -- ghost: when the peer was sent a heartbeat last

/-- A started node. -/
def init : St := ⟨PeerNet.init, 0, fun _ => [], fun _ => none, fun _ => none, fun _ => none, fun _ => none, fun _ => none, fun _ => 0⟩

/-- The heartbeats among the messages sent over a connection. -/
def beats (l : List PeerNet.Msg) : Nat := l.count (.ping PeerNet.heartbeat)

/-- How often the dispatcher calls tcall_reset_timeout for connection `c` in a step from `s` to `t`: once when on_dispatcher_setup runs
(network.h:792), and with every heartbeat (893).  Simplified: for a node that does not listen the first MsgPing of a connection, which starts no timer,
looks like a heartbeat and is counted too. -/
def resets (s t : PeerNet.St) (c : Nat) : Nat :=
  if c < s.n then
    (if (t.conns c).setUp && !(s.conns c).setUp then 1 else 0) + (beats (t.conns c).out - beats (s.conns c).out)
  else 0

/-- The peer whose heartbeat round a step completes: an answer after the timer has fired (network.h:1131-1147), or the timer after the answer (898-905). -/
def beater (s : PeerNet.St) : PeerNet.Act → Option Nat
  | .pong c h _ => if (s.conns c).term = false ∧ h.claimed = 0 then
      match (s.conns c).peer with
      | some p => if (s.peers p).freed = false ∧ (s.peers p).pingTimerOk = some true then some p else none
      | none => none
    else none
  | .pingTimer p => if (s.peers p).pongOk = some true then some p else none
  | _ => none

/-- Does the step `a` from `s` to `t` start ev_ping_timer of the peer `p`: reset_ping_timer, called with send_ping when a round is completed and by
finish_handshake (network.h:882-886, 918-919). -/
def restarts (s : PeerNet.St) (a : PeerNet.Act) (t : PeerNet.St) (p : Nat) : Bool :=
  beater s a == some p || ((s.peers p).state == .disconnected && (t.peers p).state == .connected)

/-- The connection over which a message came that the step processes. -/
def heardOn : PeerNet.Act → Option Nat
  | .ping c _ _ | .pong c _ _ => some c
  | _ => none

inductive Act where
  | net (a : PeerNet.Act) (w : Nat)  -- a step of Model/PeerNet; w: what gen_rand_timeout(ping_period) gives if it is called
  | data (c : Nat)         -- any other message arrives over c and is handed to the user
  | wait (d : Nat)         -- time passes
  | reset (c : Nat)        -- the worker of c executes the call of tcall_reset_timeout that was posted first
  | expire (c : Nat)       -- ev_timeout of c fires
  deriving DecidableEq, Repr

/-- Nothing that the event loops have to do for the connections that are not terminated and for the peers is later than `lag` at time `t`. -/
def Timely (g : Cfg) (s : St) (t : Nat) : Prop :=
  (∀ c < s.net.n, (s.net.conns c).term = false → (∀ r ∈ s.req c, t ≤ r + g.lag) ∧ (∀ r ∈ s.due c, t ≤ r + g.lag)) ∧
  (∀ e ∈ s.net.known, (s.net.peers e.2).pingArmed = true → ∀ r ∈ s.tick e.2, t ≤ r + g.lag)

/-- ev_ping_timer fires if it has been started, and not before it is due. -/
def Due (s : St) : PeerNet.Act → Prop
  | .pingTimer p => s.tick p ≠ none ∧ ∀ d ∈ s.tick p, d ≤ s.now
  | _ => True

instance (s : St) (a : PeerNet.Act) : Decidable (Due s a) := by
  cases a <;> unfold Due <;> infer_instance

instance (g : Cfg) (s : St) (t : Nat) : Decidable (Timely g s t) := by unfold Timely; infer_instance

def step (g : Cfg) (s : St) : Act → Option St
  | .net a w =>
    if w ≤ g.ping ∧ Due s a then
      (PeerNet.step g.net s.net a).map (fun t =>
        { s with
          net := t
          req := fun c => s.req c ++ List.replicate (resets s.net t c) s.now
          tick := fun p => if restarts s.net a t p then some (s.now + w) else s.tick p
          heard := fun c => if heardOn a = some c then some s.now else s.heard c
          last := fun c => if resets s.net t c = 0 then s.last c else some s.now
          sent := fun p => if restarts s.net a t p then s.now else s.sent p })
    else none
  | .data c =>
    if c < s.net.n ∧ (s.net.conns c).setUp = true ∧ (s.net.conns c).term = false then
      some { s with heard := fun d => if d = c then some s.now else s.heard d }
    else none
  | .wait d => if Timely g s (s.now + d) then some { s with now := s.now + d } else none
  | .reset c =>
    match s.req c with
    | [] => none
    | r :: rs => some { s with
        req := fun d => if d = c then rs else s.req d
        done := fun d => if d = c then some r else s.done d
        due := fun d => if d = c ∧ (s.net.conns c).term = false then some (s.now + g.timeout) else s.due d }
  | .expire c =>
    match s.due c with
    | none => none
    | some t => if t ≤ s.now then (PeerNet.step g.net s.net (.lost c)).map (fun n => { s with net := n }) else none

/-- A run. -/
def run (g : Cfg) : St → List Act → Option St
  | s, [] => some s
  | s, a :: as => (step g s a).bind (fun s => run g s as)

end PeerIdle
end Salticidae
