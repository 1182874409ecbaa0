/-
Model of the threads of a network: starting, stopping, fatal errors, and the calls that wait for the dispatcher.
  include/salticidae/conn.h:239-357 (class Worker: start, stop, disp_stop, stop_tcall, the catch clause of feed at 332), 514-541 (thread calls and error
  callbacks set up by the constructor), 549-579 (start, stop_workers), 591-600, 617-622, 630-638 (connect_sync, listen, terminate),
  include/salticidae/event.h:683-807 (ThreadCall), 79-81 (EventContext::dispatch, stop),
  include/salticidae/network.h:1071-1274 (closures and timers of PeerNetwork whose catch clauses call disp_error_cb).

Loop 0 is the dispatcher, which is also a worker; loops 1 .. n-1 are the other workers.  A step is one closure, or one event.

Simplified: closures are known by what they do when they run (`Task`); the queue of a ThreadCall is first in, first out (C34); joining the workers one after
the other is one step that waits for all; the user thread's loop is only its queue of fatal errors; uv_stop lets the loop finish its iteration, modelled by
`ending`: the loop may run any number of closures before it quits.
-/
namespace Salticidae
namespace Sys

/-- A closure in the queue of a ThreadCall. -/
inductive Task where
  | sync (c : Nat) (ok : Bool)   -- a call that waits (listen, connect_sync, get_peer_conn, ...); not ok: it throws
  | work (k : Nat)               -- any other closure that succeeds
  | bad (e : Nat)                -- a closure that fails with a fatal error
  | fwd (e : Nat)                -- worker_error_cb, conn.h:528-533
  | stop                         -- Worker::stop, conn.h:338-340
  deriving DecidableEq, Repr

inductive Phase where
  | idle | runs | ended
  deriving DecidableEq, Repr

/-- A worker: its thread and its ThreadCall. -/
structure Loop where
  phase : Phase
  q : List Task
  ending : Bool        -- uv_stop has been called

/-- What a call that waits gets. -/
inductive Outcome where
  | value | thrown | notAvail
  deriving DecidableEq, Repr

/-- Where the thread in stop_workers is. -/
inductive Pc where
  | out | joinDisp | joinWorkers | finished
  deriving DecidableEq, Repr

structure St where
  n : Nat                          -- number of workers
  sys : Nat                        -- system_state
  loops : Nat → Loop
  exitReq : Bool                   -- the closure of disp_stop is waiting in exit_tcall
  tstop : Bool                     -- ThreadCall::stopped of the dispatcher
  user : List Nat                  -- fatal errors in the queue of the user's ThreadCall
  out : List Nat                   -- error_cb(err, true, -1)
  done : List (Nat × Outcome)      -- calls that have returned
  ran : List (Nat × Nat)           -- closures run (loop, which)
  pc : Pc
  occ : List Nat                   -- ghost: the fatal errors that occurred

def init (n : Nat) : St := ⟨n, 0, fun _ => ⟨.idle, [], false⟩, false, false, [], [], [], [], .out, []⟩

def setLoop (s : St) (i : Nat) (l : Loop) : St := { s with loops := fun j => if j = i then l else s.loops j }
/-- async_call, or call. -/
def push (s : St) (i : Nat) (t : Task) : St := setLoop s i { s.loops i with q := (s.loops i).q ++ [t] }

/-- Worker::stop for all workers but the dispatcher, conn.h:522-523, 566-567. -/
def stopAll (s : St) : St :=
  { s with loops := fun i => if 1 ≤ i ∧ i < s.n then { s.loops i with q := (s.loops i).q ++ [.stop] } else s.loops i }

/-- disp_error_cb, conn.h:519-526. -/
def dispError (s : St) (e : Nat) : St := { s with tstop := true, user := s.user ++ [e] }

/-- A closure on the dispatcher, event.h:753-760: once its ThreadCall is stopped, calls that wait get SALTI_ERROR_NOT_AVAIL, and others are dropped. -/
def exec0 (s : St) (t : Task) : St :=
  if s.tstop then
    match t with
    | .sync c _ => { s with done := s.done ++ [(c, .notAvail)] }
    | _ => s
  else
    match t with
    | .sync c ok => { s with done := s.done ++ [(c, if ok then .value else .thrown)] }
    | .work k => { s with ran := s.ran ++ [(0, k)] }
    | .bad e => dispError { s with occ := s.occ ++ [e] } e
    | .fwd e => dispError s e
    | .stop => setLoop s 0 { s.loops 0 with ending := true }

/-- A closure on another worker. -/
def execW (s : St) (i : Nat) (t : Task) : St :=
  match t with
  | .work k => { s with ran := s.ran ++ [(i, k)] }
  | .bad e => push { s with occ := s.occ ++ [e] } 0 (.fwd e)
  | .stop => setLoop s i { s.loops i with ending := true }
  | _ => s

inductive Act where
  | start
  | call (c : Nat) (ok : Bool)     -- a thread makes a call that waits
  | post (i k : Nat)               -- a closure for loop i
  | postBad (i e : Nat)            -- a closure for loop i that will fail
  | run (i : Nat)
  | timer (e : Nat)                -- an event of the dispatcher fails
  | exit                           -- the dispatcher runs the closure of disp_stop
  | quit (i : Nat)                 -- a loop that is to end ends
  | user                           -- the user's loop runs the closure of disp_error_cb
  | stop                           -- a thread enters stop_workers
  | join                           -- it goes on
  deriving DecidableEq, Repr

/-- One step; `none`: it cannot happen. -/
def step (s : St) : Act → Option St
  | .start =>
    -- conn.h:549-556
    if s.sys ≠ 0 then some s
    else some { s with sys := 1, loops := fun i => if i < s.n then { s.loops i with phase := .runs } else s.loops i }
  | .call c ok => some (push s 0 (.sync c ok))
  | .post i k => if i < s.n then some (push s i (.work k)) else none
  | .postBad i e => if i < s.n then some (push s i (.bad e)) else none
  | .run i =>
    if i < s.n ∧ (s.loops i).phase = .runs then
      match (s.loops i).q with
      | t :: rest =>
        let s := setLoop s i { s.loops i with q := rest }
        some (if i = 0 then exec0 s t else execW s i t)
      | [] => none
    else none
  | .timer e => if (s.loops 0).phase = .runs then some (dispError { s with occ := s.occ ++ [e] } e) else none
  | .exit =>
    if (s.loops 0).phase = .runs ∧ s.exitReq then some (setLoop { s with exitReq := false } 0 { s.loops 0 with ending := true })
    else none
  | .quit i =>
    if i < s.n ∧ (s.loops i).phase = .runs ∧ (s.loops i).ending then some (setLoop s i { s.loops i with phase := .ended }) else none
  | .user =>
    match s.user with
    | e :: rest => some { stopAll { s with user := rest } with out := s.out ++ [e] }
    | [] => none
  | .stop =>
    -- conn.h:558-564
    if s.sys ≠ 1 then some s else some { s with sys := 2, exitReq := true, pc := .joinDisp }
  | .join =>
    match s.pc with
    | .joinDisp => if (s.loops 0).phase = .ended then some { stopAll s with pc := .joinWorkers } else none
    | .joinWorkers => if ∀ i < s.n, (s.loops i).phase = .ended then some { s with pc := .finished } else none
    | _ => none

def run : St → List Act → Option St
  | s, [] => some s
  | s, a :: as => (step s a).bind (run · as)

end Sys
end Salticidae
