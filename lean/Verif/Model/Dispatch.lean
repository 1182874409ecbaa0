import Verif.Model.EvQueue
/-
Model of the delivery of received messages to handlers: the constructor of MsgNetwork
(include/salticidae/network.h:198-230), `reg_handler` and `set_handler` (network.h:232-256), on top
of the event-driven queue `incoming_msgs` (Model/EvQueue, one consumer).

Simplifications.  A message is its opcode, the connection it came from and an arbitrary tag.  What a
handler does with a message (returns, throws a std::exception, throws something else; for
`reg_handler` this includes parsing the payload) is given by an arbitrary function `beh`.  An
exception that leaves the handler loop ends the process (`crashed`).  `worker_terminate(conn)` is
recorded as a request to terminate `conn`.  Handlers are registered by the thread that runs the loop
(or before it runs); the table is not synchronised.
-/
namespace Salticidae
namespace Disp

/-- A received message. -/
structure Msg where
  op : Nat
  conn : Nat
  tag : Nat
  deriving DecidableEq, Repr

/-- A handler: `catches` for `reg_handler`, not for `set_handler`. -/
structure Handler where
  id : Nat
  catches : Bool
  deriving DecidableEq, Repr

/-- What a handler does with a message. -/
inductive Beh where
  | ok
  | stdExn
  | otherExn
  deriving DecidableEq, Repr

/-- What has happened, in order (ghost). -/
inductive Event where
  | reg (op : Nat) (h : Handler)
  | msg (m : Msg)
  deriving DecidableEq, Repr

/-- State of the loop. -/
structure St where
  ev : EvQ.St Msg
  handlers : List (Nat × Handler)     -- handler_map, network.h:125-127
  sys : Nat                           -- system_state
  cnt : Nat
  calls : List (Handler × Msg)        -- handler invocations, in order
  terminated : List Nat               -- arguments of worker_terminate, in order
  crashed : Bool
  hist : List Event                   -- ghost
  deriving DecidableEq, Repr

/-- Constructor and start: system_state is 1. -/
def init : St := ⟨EvQ.init 1, [], 1, 0, [], [], false, []⟩

/-- What can happen next. -/
inductive Act where
  | recv (m : Msg)      -- a worker thread enqueues a parsed message (bounded)
  | prod (i : Nat)
  | refuse (i : Nat)    -- the queue is full (the worker retries later with another `recv`)
  | fire
  | cb
  | handle              -- the loop takes a message and handles it
  | idle                -- the loop finds the queue empty
  | reg (op : Nat) (h : Handler)   -- reg_handler / set_handler, network.h:232-256
  | stop                -- system_state becomes 2
  deriving DecidableEq, Repr

/-- `handler_map[opcode] = handler`, network.h:255. -/
def setHandler (hs : List (Nat × Handler)) (op : Nat) (h : Handler) : List (Nat × Handler) :=
  (op, h) :: hs.filter (fun x => x.1 ≠ op)

/-- `handler_map.find`, network.h:206. -/
def findHandler (hs : List (Nat × Handler)) (op : Nat) : Option Handler :=
  (hs.find? (fun x => x.1 = op)).map (·.2)

/-- Handling one message, network.h:204-223 and 238-249. -/
def handleOne (beh : Handler → Msg → Beh) (s : St) (m : Msg) : St :=
  let s := { s with hist := s.hist ++ [.msg m] }
  match findHandler s.handlers m.op with
  | none => s
  | some h =>
    let s := { s with calls := s.calls ++ [(h, m)] }
    match beh h m with
    | .ok => s
    | .stdExn => if h.catches then { s with terminated := s.terminated ++ [m.conn] } else { s with crashed := true }
    | .otherExn => { s with crashed := true }

/-- One step with burst size `burst`. -/
def step (beh : Handler → Msg → Beh) (burst : Nat) (s : St) (a : Act) : Option St :=
  if s.crashed then none else
  match a with
  | .recv m => (EvQ.step false s.ev (.call m)).map fun ev => { s with ev := ev }
  | .prod i => (EvQ.step false s.ev (.prod i)).map fun ev => { s with ev := ev }
  | .refuse i => (EvQ.step false s.ev (.refuse i)).map fun ev => { s with ev := ev }
  | .fire => (EvQ.step false s.ev (.fire 0)).map fun ev => { s with ev := ev }
  | .cb => (EvQ.step false s.ev (.cons 0)).map fun ev => { s with ev := ev, cnt := 0 }
  | .handle =>
    match s.ev.q with
    | [] => none
    | m :: _ =>
      match EvQ.step false s.ev (.deq 0) with
      | none => none
      | some ev =>
        if s.sys ≠ 1 then some { s with ev := { ev with cons := [.idle] } }
        else
          let s' := handleOne beh { s with ev := ev, cnt := s.cnt + 1 } m
          if s'.crashed then some s'
          else if s.cnt + 1 = burst then (EvQ.step false ev (.more 0)).map fun ev => { s' with ev := ev }
          else some s'
  | .idle => (EvQ.step false s.ev (.empty 0)).map fun ev => { s with ev := ev }
  | .reg op h => some { s with handlers := setHandler s.handlers op h, hist := s.hist ++ [.reg op h] }
  | .stop => some { s with sys := 2 }

/-- A run. -/
def run (beh : Handler → Msg → Beh) (burst : Nat) : St → List Act → Option St
  | s, [] => some s
  | s, a :: as => (step beh burst s a).bind (fun s => run beh burst s as)

/-- No producer mid-way, no callback running, nothing to read. -/
def atRest (s : St) : Bool :=
  s.ev.prods.all (fun p => match p with | .done _ => true | _ => false) && s.ev.cons == [.idle] && s.ev.fd == 0

end Disp
end Salticidae
