/-
Model of the heartbeat of one connected peer, with time: include/salticidae/network.h:743-753, 756-772, 882-905 and
1135-1150, from the moment when the handshake finished (919-920).

Time is in milliseconds (event.h:239-243 turns seconds into them).  A timer that is due, and a call posted to the worker, are executed late,
by at most `lag`: time does not go past that.  The steps of dispatcher and worker are atomic.  The timeout of the connection lives in
the worker's loop; the ping timer in the dispatcher's.

Simplified: the history ends when the connection is dropped; other reasons for losing it are in Model/PeerNet; libuv's cached
loop time is the time.
-/
namespace Salticidae
namespace Heartbeat

/-- Configuration: ping_period, conn_timeout (network.h:555-590), and the delay of the event loops. -/
structure Cfg where
  period : Nat
  timeout : Nat
  lag : Nat

inductive Ev where
  | ping | pong
  deriving DecidableEq, Repr

structure St where
  now : Nat
  timer : Option Nat     -- ev_ping_timer: when it is due
  timerOk : Bool         -- ping_timer_ok
  pongOk : Bool          -- pong_msg_ok
  posted : List Nat      -- calls of tcall_reset_timeout not executed yet, with the time of the call
  deadline : Nat         -- ev_timeout of the connection: when it is due
  dropped : Bool
  log : List (Nat × Ev)  -- ghost: heartbeats sent and answers received, with their times
  deriving DecidableEq, Repr

/-- reset_ping_timer, network.h:882-886: `r` is gen_rand_timeout(ping_period). -/
def resetPingTimer (s : St) (r : Nat) : St := { s with timer := some (s.now + r) }

/-- send_ping, network.h:889-895, with tcall_reset_timeout, 743-753. -/
def sendPing (s : St) : St :=
  { s with timerOk := false, pongOk := false, posted := s.posted ++ [s.now], log := s.log ++ [(s.now, .ping)] }

/-- The values of gen_rand_timeout(ping_period), util.cpp:109-111, with alpha = 1/2. -/
def Rand (g : Cfg) (r : Nat) : Prop := g.period ≤ r ∧ 2 * r ≤ 3 * g.period
instance (g : Cfg) (r : Nat) : Decidable (Rand g r) := by unfold Rand; infer_instance

/-- finish_handshake, network.h:919-920, at time 0; the timeout that was set when the connection was set up (792) is due at `due`. -/
def start (due r : Nat) : St := sendPing (resetPingTimer ⟨0, none, false, false, [], due, false, []⟩ r)

inductive Act where
  | tick (d : Nat)    -- time passes
  | timer (r : Nat)   -- ev_ping_timer fires
  | pong (r : Nat)    -- an answer is processed
  | reset             -- the worker executes the call posted first
  | timeout           -- ev_timeout fires
  deriving DecidableEq, Repr

/-- Peer::ping_timer, network.h:898-905. -/
def pingTimer (s : St) (r : Nat) : St :=
  let s := { s with timer := none, timerOk := true }
  if s.pongOk then sendPing (resetPingTimer s r) else s

/-- pong_handler for a heartbeat, network.h:1144-1149. -/
def pongHandler (s : St) (r : Nat) : St :=
  let s := { s with pongOk := true, log := s.log ++ [(s.now, .pong)] }
  if s.timerOk then sendPing (resetPingTimer s r) else s

/-- May time go on to `t`. -/
def mayPass (g : Cfg) (s : St) (t : Nat) : Bool :=
  (match s.timer with
    | none => true
    | some d => t ≤ d + g.lag) && t ≤ s.deadline + g.lag && s.posted.all (fun p => t ≤ p + g.lag)

def step (g : Cfg) (s : St) : Act → Option St
  | .tick d => if !s.dropped && mayPass g s (s.now + d) then some { s with now := s.now + d } else none
  | .timer r =>
    match s.timer with
    | none => none
    | some d => if !s.dropped && decide (d ≤ s.now) && decide (Rand g r) then some (pingTimer s r) else none
  | .pong r => if !s.dropped && decide (Rand g r) then some (pongHandler s r) else none
  | .reset =>
    match s.posted with
    | [] => none
    | _ :: rest => if s.dropped then none else some { s with posted := rest, deadline := s.now + g.timeout }
  | .timeout => if !s.dropped && decide (s.deadline ≤ s.now) then some { s with dropped := true } else none

def run (g : Cfg) : St → List Act → Option St
  | s, [] => some s
  | s, a :: as => (step g s a).bind (fun s => run g s as)

def trace (g : Cfg) : St → List Act → List (St × Act)
  | _, [] => []
  | s, a :: as => (s, a) :: (match step g s a with
    | some s' => trace g s' as
    | none => [])

end Heartbeat
end Salticidae
