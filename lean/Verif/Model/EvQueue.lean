/-
Model of the event-driven queues `MPSCQueueEventDriven` and `MPMCQueueEventDriven`
(include/salticidae/event.h:599-690) with `NotifyFd` (event.h:549-563, eventfd), as a machine
whose steps are the atomic accesses of any number of producers and consumers.

Simplifications.  The underlying queue is a list: an enqueue that takes effect appends, a dequeue
takes the first element, and an empty queue is reported only when it is empty (what C34 says of
MPSCQueue).  The registered function `func` is arbitrary: it dequeues, and returns false only
after a dequeue reported an empty queue, or returns true at any moment.  The event loop polls the
descriptor level-triggered: an idle consumer may be called whenever the descriptor is readable.
The counter of the eventfd does not reach 2^64-1.  Sequential consistency.
-/
namespace Salticidae
namespace EvQ

/-- Where a call of `enqueue` (event.h:631-642, 676-687) is. -/
inductive PPc (α : Type) where
  | enq (a : α)   -- about to enqueue in the underlying queue
  | exch          -- about to do `wait_sig.exchange(false)`
  | notify        -- about to write to the descriptor
  | done (r : Bool)  -- returned
  deriving DecidableEq, Repr

/-- Where a consumer's callback (event.h:613-625, 663-669) is. -/
inductive CPc where
  | idle
  | reset         -- called; about to read the descriptor
  | exch          -- about to do `wait_sig.exchange(true)`
  | func          -- in `func`, before its next dequeue
  | notify        -- `func` returned true; about to write to the descriptor
  deriving DecidableEq, Repr

/-- The shared state. -/
structure St (α : Type) where
  q : List α           -- the underlying queue
  waitSig : Bool       -- event.h:602
  fd : Nat             -- counter of the eventfd
  prods : List (PPc α)
  cons : List CPc
  accepted : List α    -- ghost: all elements enqueued, in order
  seen : List α        -- ghost: all elements dequeued, in order
  deriving DecidableEq, Repr

/-- Constructor (event.h:607) and `k` registered handlers. -/
def init {α : Type} (k : Nat) : St α := ⟨[], true, 0, [], List.replicate k .idle, [], []⟩

/-- What can happen next. -/
inductive Act (α : Type) where
  | call (a : α)     -- some thread calls `enqueue(a)`
  | prod (i : Nat)   -- the i-th of these calls makes its next step
  | refuse (i : Nat) -- the underlying (bounded) queue refuses the element, event.h:632
  | fire (j : Nat)   -- the event loop of consumer j sees a readable descriptor
  | cons (j : Nat)   -- consumer j makes its next step outside `func`
  | deq (j : Nat)    -- `func` dequeues an element
  | empty (j : Nat)  -- `func` finds the queue empty and returns false
  | more (j : Nat)   -- `func` returns true
  deriving DecidableEq, Repr

/-- One step; `strict` distinguishes the MPMC callback, which returns when `reset` fails
(event.h:664), from the MPSC one, which ignores it (event.h:615). -/
def step {α : Type} (strict : Bool) (s : St α) : Act α → Option (St α)
  | .call a => some { s with prods := s.prods ++ [.enq a] }
  | .prod i =>
    match s.prods[i]? with
    | some (.enq a) => some { s with
        q := s.q ++ [a], accepted := s.accepted ++ [a], prods := s.prods.set i .exch }
    | some .exch => some { s with
        waitSig := false, prods := s.prods.set i (if s.waitSig then .notify else .done true) }
    | some .notify => some { s with fd := s.fd + 1, prods := s.prods.set i (.done true) }
    | _ => none
  | .refuse i =>
    match s.prods[i]? with
    | some (.enq _) => some { s with prods := s.prods.set i (.done false) }
    | _ => none
  | .fire j => if s.cons[j]? = some .idle ∧ 0 < s.fd then some { s with cons := s.cons.set j .reset } else none
  | .cons j =>
    match s.cons[j]? with
    | some .reset =>
      if strict && s.fd == 0 then some { s with cons := s.cons.set j .idle }
      else some { s with fd := 0, cons := s.cons.set j .exch }
    | some .exch => some { s with waitSig := true, cons := s.cons.set j .func }
    | some .notify => some { s with fd := s.fd + 1, cons := s.cons.set j .idle }
    | _ => none
  | .deq j =>
    match s.cons[j]?, s.q with
    | some .func, a :: q => some { s with q := q, seen := s.seen ++ [a] }
    | _, _ => none
  | .empty j =>
    match s.cons[j]?, s.q with
    | some .func, [] => some { s with cons := s.cons.set j .idle }
    | _, _ => none
  | .more j =>
    match s.cons[j]? with
    | some .func => some { s with cons := s.cons.set j .notify }
    | _ => none

/-- A run of the machine. -/
def run {α : Type} (strict : Bool) : St α → List (Act α) → Option (St α)
  | s, [] => some s
  | s, a :: as => (step strict s a).bind (fun s => run strict s as)

end EvQ
end Salticidae
