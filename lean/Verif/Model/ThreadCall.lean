import Verif.Model.EvQueue
/-
Model of ThreadCall (include/salticidae/event.h:692-807): a queue of calls on one event loop, built
on the event-driven queue of Model/EvQueue with one consumer.

Simplifications.  What a callback does is fixed by the call (`out`): it returns having set a result,
returns without setting one, or throws.  Calls made by a callback are ordinary `submit` actions while
`cur` is set.  The accesses to the plain bool `stopped` are treated as atomic.  The thread running the
event loop does not make a synchronous call to its own ThreadCall (it would wait for itself).
-/
namespace Salticidae
namespace TC

/-- What the callback does. -/
inductive Out where
  | ret (v : Option Nat)   -- returns, having called `set_result(v)` or not
  | throws (e : Nat)
  deriving DecidableEq, Repr

/-- What a synchronous caller gets: `Result::get`, event.h:731-734. -/
inductive Res where
  | ok (v : Option Nat)
  | error (e : Nat)
  | notAvail        -- SalticidaeError(SALTI_ERROR_NOT_AVAIL)
  deriving DecidableEq, Repr

/-- A Handle: `call` (event.h:795-802) or `async_call` (event.h:787-792). -/
structure Call where
  id : Nat
  sync : Bool
  out : Out
  deriving DecidableEq, Repr

/-- State of the ThreadCall, its event loop and its callers. -/
structure St where
  ev : EvQ.St Call
  stopped : Bool
  cnt : Nat                        -- calls handled in this activation
  cur : Option (Call × Bool)       -- the call being handled, and `stopped` when it was looked at
  executed : List (Call × Bool)    -- ghost: calls taken from the queue, in order; true = not run
  delivered : List (Nat × Res)     -- results handed to synchronous callers, in order
  dead : Bool                      -- destroyed
  dropped : List Call              -- calls deleted by the destructor
  deriving DecidableEq, Repr

/-- Constructor, event.h:761-779. -/
def init : St := ⟨EvQ.init 1, false, 0, none, [], [], false, []⟩

/-- What can happen next. -/
inductive Act where
  | submit (c : Call)   -- some thread calls `call` or `async_call`
  | prod (i : Nat)      -- the i-th of these makes its next step in `enqueue`
  | fire                -- the event loop calls the handler
  | cb                  -- the handler's next step outside the function
  | take                -- dequeue a call and start it
  | finish              -- the call ends; hand out the result; `delete h`
  | idle                -- the queue is empty: return false
  | stop                -- event.h:805
  | destroy             -- destructor, event.h:781-784
  deriving DecidableEq, Repr

/-- What the synchronous caller of `c` gets, event.h:767-773. -/
def result (c : Call) (stopped : Bool) : Res :=
  if stopped then .notAvail else
    match c.out with
    | .ret v => .ok v
    | .throws e => .error e

/-- No call of `enqueue` is in progress. -/
def returned (s : EvQ.St Call) : Bool := s.prods.all (fun p => match p with | .done _ => true | _ => false)

/-- One step with burst size `burst`. -/
def step (burst : Nat) (s : St) (a : Act) : Option St :=
  if s.dead then none else
  match a with
  | .submit c => (EvQ.step false s.ev (.call c)).map fun ev => { s with ev := ev }
  | .prod i => (EvQ.step false s.ev (.prod i)).map fun ev => { s with ev := ev }
  | .fire => (EvQ.step false s.ev (.fire 0)).map fun ev => { s with ev := ev }
  | .cb => (EvQ.step false s.ev (.cons 0)).map fun ev => { s with ev := ev, cnt := 0 }
  | .take =>
    if s.cur.isSome then none else
    match s.ev.q with
    | [] => none
    | c :: _ => (EvQ.step false s.ev (.deq 0)).map fun ev =>
        { s with
          ev := ev, cur := some (c, s.stopped), executed := s.executed ++ [(c, s.stopped)] }
  | .finish =>
    match s.cur with
    | none => none
    | some (c, st) =>
      let s' := { s with
        cur := none, cnt := s.cnt + 1
        delivered := s.delivered ++ (if c.sync then [(c.id, result c st)] else []) }
      if s.cnt + 1 = burst then (EvQ.step false s.ev (.more 0)).map fun ev => { s' with ev := ev }
      else some s'
  | .idle => if s.cur.isSome then none else (EvQ.step false s.ev (.empty 0)).map fun ev => { s with ev := ev }
  | .stop => some { s with stopped := true }
  | .destroy =>
    if s.ev.cons = [.idle] ∧ returned s.ev then
      some { s with
        dead := true, dropped := s.ev.q
        ev := { s.ev with q := [] } }
    else none

/-- A run. -/
def run (burst : Nat) : St → List Act → Option St
  | s, [] => some s
  | s, a :: as => (step burst s a).bind (fun s => run burst s as)

/-- Nothing will happen any more unless a new call is submitted: no `enqueue` in progress, no
handler running, nothing to read from the descriptor (or the ThreadCall is gone). -/
def atRest (s : St) : Bool :=
  s.dead || (returned s.ev && s.ev.cons == [.idle] && s.ev.fd == 0)

/-- The steps of the event loop's thread. -/
def loopStep : Act → Bool
  | .fire => true
  | .cb => true
  | .take => true
  | .finish => true
  | .idle => true
  | _ => false

end TC
end Salticidae
