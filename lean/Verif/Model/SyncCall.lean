/-
Model of one synchronous call, in the steps of its two threads:
  include/salticidae/event.h:526-545 (ThreadNotifier), 702-735 (Result), 736-757 (Handle), 764-774 (the handler), 795-802 (`call`).

The caller makes a Handle and, on its stack, a ThreadNotifier, whose constructor locks the mutex (line 534), puts the handle into the queue
and waits.  The other thread, which runs the event loop, takes the handle, runs the callback, hands over the result and
deletes the handle.  Results are heap cells: `heap` holds those that are allocated, with their values.

Simplified: the queue is Model/ThreadCall; sequentially consistent memory; a mutex may be destroyed as soon as it has been unlocked
(POSIX); the callback is a list of the things it does with its handle.
-/
namespace Salticidae
namespace SyncCall

/-- `Result`: `data` and `error`, event.h:702-709. -/
structure Slot where
  data : Option Nat := none   -- heap cell
  error : Option Nat := none
  deriving DecidableEq, Repr

/-- What a callback does with its handle: `set_result(v)`, or `return_sync()`. -/
inductive CbOp where
  | set (v : Nat)
  | sync
  deriving DecidableEq, Repr

/-- The callback: what it does, and whether it throws in the end. -/
structure Callback where
  ops : List CbOp
  throws : Option Nat
  deriving DecidableEq, Repr

/-- The steps of the thread that runs the callback. -/
inductive Instr where
  | set (v : Nat) (err : Option Nat)   -- set_result, event.h:752-756 (and line 771)
  | lock                               -- notify, event.h:539-544
  | ready
  | data
  | all
  | unlock
  | delete                             -- delete h, event.h:774
  deriving DecidableEq, Repr

/-- ThreadNotifier::notify, event.h:539-544. -/
def notifyCode : List Instr := [.lock, .ready, .data, .all, .unlock]

/-- One of the callback's operations: set_result, event.h:752-756, return_sync, 743-746. -/
def opCode : CbOp → List Instr
  | .set v => [.set v none]
  | .sync => notifyCode

/-- The handler, event.h:767-774, with exec, 747-750: `set_result(0).error = ...` when the callback has thrown. -/
def code (cb : Callback) : List Instr :=
  cb.ops.flatMap opCode ++
  (match cb.throws with
    | none => []
    | some e => [.set 0 (some e)]) ++ notifyCode ++ [.delete]

/-- Where the caller is. -/
inductive Pc where
  | enqueue    -- event.h:800
  | test       -- in cv.wait, holding the mutex: event.h:536
  | sleep      -- in cv.wait, having released the mutex
  | relock     -- woken, about to lock the mutex
  | move       -- event.h:537
  | unlock     -- ~ThreadNotifier: data is destroyed, the mutex released
  | destroy    -- ~ThreadNotifier: the mutex and the condition variable are destroyed
  | get        -- Result::get, event.h:731-734
  | drop       -- ~Result, event.h:710
  | done
  deriving DecidableEq, Repr

inductive Who where
  | caller
  | runner
  deriving DecidableEq, Repr

/-- What `get` gives: the value (`none`: no result was set), or the exception. -/
inductive Got where
  | value (v : Option Nat)
  | error (e : Nat)
  deriving DecidableEq, Repr

structure St where
  heap : List (Nat × Nat)       -- allocated results
  next : Nat                    -- next new cell
  handle : Option Slot          -- h->result; `none` once the handle is deleted
  alive : Bool                  -- the notifier exists
  owner : Option Who            -- of its mutex
  ready : Bool
  box : Slot                    -- its data
  pc : Pc
  mine : Slot                   -- the Result that the caller has
  got : Option Got              -- what `get` gave
  todo : List Instr             -- of the running thread
  deriving DecidableEq, Repr

/-- event.h:796-799. -/
def init (cb : Callback) : St := ⟨[], 0, some {}, true, some .caller, false, {}, .enqueue, {}, none, code cb⟩

/-- What a step does. -/
inductive Step where
  | ok (s : St)
  | blocked
  | ub                          -- a destroyed object or a freed cell is used, or a mutex is unlocked by someone else
  deriving DecidableEq, Repr

/-- `~Result`: `if (data != nullptr) deleter(data)`, event.h:710; `none`: the cell is not allocated. -/
def free (heap : List (Nat × Nat)) (r : Slot) : Option (List (Nat × Nat)) :=
  match r.data with
  | none => some heap
  | some p => if heap.any (·.1 == p) then some (heap.filter (·.1 ≠ p)) else none

/-- The next step of the running thread. -/
def runner (s : St) : Step :=
  if s.pc = .enqueue then .blocked else
  match s.todo with
  | [] => .blocked
  | .set v err :: is =>
    match s.handle with
    | none => .ub
    | some r =>
      match free ((s.next, v) :: s.heap) r with
      | none => .ub
      | some h => .ok { s with heap := h, next := s.next + 1, handle := some ⟨some s.next, err⟩, todo := is }
  | .lock :: is =>
    if !s.alive then .ub else if s.owner = none then .ok { s with owner := some .runner, todo := is } else .blocked
  | .ready :: is => if !s.alive then .ub else .ok { s with ready := true, todo := is }
  | .data :: is =>
    match s.handle with
    | none => .ub
    | some r =>
      if !s.alive then .ub else
      match free s.heap s.box with
      | none => .ub
      | some h => .ok { s with heap := h, box := r, handle := some {}, todo := is }
  | .all :: is => if !s.alive then .ub else .ok { s with pc := if s.pc = .sleep then .relock else s.pc, todo := is }
  | .unlock :: is => if !s.alive || s.owner ≠ some .runner then .ub else .ok { s with owner := none, todo := is }
  | .delete :: is =>
    match s.handle with
    | none => .ub
    | some r =>
      match free s.heap r with
      | none => .ub
      | some h => .ok { s with heap := h, handle := none, todo := is }

/-- The next step of the caller. -/
def caller (s : St) : Step :=
  match s.pc with
  | .enqueue => .ok { s with pc := .test }
  | .test => if s.ready then .ok { s with pc := .move } else .ok { s with pc := .sleep, owner := none }
  | .sleep => .blocked
  | .relock => if s.owner = none then .ok { s with owner := some .caller, pc := .test } else .blocked
  | .move => .ok { s with mine := s.box, box := {}, pc := .unlock }
  | .unlock =>
    match free s.heap s.box with
    | none => .ub
    | some h => if s.owner ≠ some .caller then .ub else .ok { s with heap := h, box := {}, owner := none, pc := .destroy }
  | .destroy => if s.owner ≠ none then .ub else .ok { s with alive := false, pc := .get }
  | .get =>
    match s.mine.error, s.mine.data with
    | some e, _ => .ok { s with got := some (.error e), pc := .drop }
    | none, none => .ok { s with got := some (.value none), pc := .drop }
    | none, some p =>
      match s.heap.find? (·.1 == p) with
      | none => .ub
      | some c => .ok { s with got := some (.value (some c.2)), pc := .drop }
  | .drop =>
    match free s.heap s.mine with
    | none => .ub
    | some h => .ok { s with heap := h, mine := {}, pc := .done }
  | .done => .blocked

/-- A spurious wake-up. -/
def wake (s : St) : Step := if s.pc = .sleep then .ok { s with pc := .relock } else .blocked

inductive Act where
  | step (w : Who)
  | wake
  deriving DecidableEq, Repr

def step (s : St) : Act → Step
  | .step .caller => caller s
  | .step .runner => runner s
  | .wake => wake s

/-- A schedule. -/
def run : St → List Act → Step
  | s, [] => .ok s
  | s, a :: as =>
    match step s a with
    | .ok t => run t as
    | .blocked => .blocked
    | .ub => .ub

end SyncCall
end Salticidae
