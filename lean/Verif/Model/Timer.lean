/-
Model of what TimerEvent and TimedFdEvent report, and when (include/salticidae/event.h:174-345).
C72 is about who owns the handles; here every object keeps its handles, and time is added.

The loop is that of libuv (src/unix/core.c `uv_run`, src/timer.c): it keeps a clock of its own, in
milliseconds, that is set when an iteration starts and when waiting for descriptors ends; timers are
started relative to that clock; in each iteration the timers that are due are run, and then the
descriptors that are ready.  (Versions of libuv differ in whether the timers or the descriptors come
first in an iteration, which makes no difference to a loop that goes round.)
-/
namespace Salticidae
namespace Timer

/-- The rounding of a double precision product, and the range of `uint64_t`. -/
def u64 : Nat := 2 ^ 64

/-- `uint64_t(t_sec * 1000)`, event.h:244, 328: the product, rounded, is truncated towards zero;
`none`: the result does not fit, which is undefined (C++17 [conv.fpint]).  (Infinities and NaN, for
which it is undefined too, are left out.) -/
def toMs (rnd : Rat → Rat) (t : Rat) : Option Nat :=
  if -1 < rnd (t * 1000) ∧ rnd (t * 1000) < (u64 : Rat) then some (rnd (t * 1000)).floor.toNat else none

/-- What an object is. -/
inductive Kind where
  | timer | timed
deriving DecidableEq, Repr

/-- A TimerEvent (event.h:178-181) or a TimedFdEvent (event.h:255-262): when its timer is due (none: it
is not running), what its uv_poll_t waits for (0: it is stopped), the member `timeout`, whether it has
been cleared; `mark` is a field of the model: the timer was running when the loop started to run timers. -/
structure Obj where
  kind : Kind
  due : Option Nat := none
  mask : Nat := 0
  timeout : Nat := 0
  cleared : Bool := false
  mark : Bool := false
deriving DecidableEq, Repr

/-- What the loop is doing: running timers, or waiting for descriptors. -/
inductive Phase where
  | timers | poll
deriving DecidableEq, Repr

/-- `now` is the real time in nanoseconds, `lt` the clock of the loop (`loop->time`), in milliseconds. -/
structure St where
  now : Nat := 0
  lt : Nat := 0
  phase : Phase := .poll
  objs : List Obj := []
  undef : Bool := false
deriving DecidableEq, Repr

/-- What can happen. -/
inductive Act where
  /-- time passes (nanoseconds) -/
  | clock (d : Nat)
  /-- an iteration of the loop starts -/
  | iter
  /-- the loop has run its timers and starts to wait -/
  | wait
  /-- it ends waiting, and sets its clock -/
  | woke
  /-- the program makes an object -/
  | new (k : Kind)
  /-- TimerEvent::add -/
  | add (i : Nat) (t : Rat)
  /-- TimedFdEvent::add -/
  | addFd (i : Nat) (ev : Nat) (t : Rat)
  | del (i : Nat)
  | clear (i : Nat)
  /-- the descriptor of the object becomes ready -/
  | avail (i : Nat)
  /-- the callback of the object is called by its timer: with TIMEOUT if it is a TimedFdEvent -/
  | fire (i : Nat)
  /-- the callback is called with these events -/
  | ready (i : Nat) (ev : Nat)
  /-- the callback is called with ERROR -/
  | error (i : Nat)
deriving DecidableEq

/-- `uv_timer_start` with repeat 0 (libuv src/timer.c): relative to the clock of the loop; the sum is capped. -/
def start (s : St) (o : Obj) (ms : Nat) : Obj :=
  { o with due := some (if s.lt + ms < u64 then s.lt + ms else u64 - 1), mark := false }

/-- The object changes. -/
def St.set (s : St) (i : Nat) (o : Obj) : St := { s with objs := s.objs.set i o }

/-- One step; `none`: it cannot happen (or the program may not do it: adding an object that has been
cleared fails an assertion, event.h:243, 326).  An undefined conversion sets `undef`. -/
def step (rnd : Rat → Rat) (s : St) : Act → Option St
  | .clock d =>
    -- uv_hrtime() is a uint64_t of nanoseconds
    if s.now + d < u64 then some { s with now := s.now + d } else none
  | .iter =>
    if s.phase = .poll then
      some { s with phase := .timers, lt := s.now / 1000000, objs := s.objs.map fun o => { o with mark := o.due.isSome } }
    else none
  | .wait =>
    if s.phase = .timers ∧ s.objs.all (fun o => match o.due with
        | some d => !(o.mark && decide (d ≤ s.lt))
        | none => true) then
      some { s with phase := .poll }
    else none
  | .woke => if s.phase = .poll then some { s with lt := s.now / 1000000 } else none
  | .new k => some { s with objs := s.objs ++ [{ kind := k }] }
  | .add i t =>
    -- event.h:242-246
    match s.objs[i]? with
    | some o =>
      if o.kind = .timer ∧ o.cleared = false then
        match toMs rnd t with
        | some ms => some (s.set i (start s o ms))
        | none => some { s with undef := true }
      else none
    | none => none
  | .addFd i ev t =>
    -- event.h:325-332
    match s.objs[i]? with
    | some o =>
      if o.kind = .timed ∧ o.cleared = false then
        match toMs rnd t with
        | some ms => some (s.set i { start s o ms with timeout := ms, mask := ev })
        | none => some { s with undef := true }
      else none
    | none => none
  | .del i =>
    -- event.h:248-250, 334-337
    match s.objs[i]? with
    | some o => some (s.set i { o with due := none, mask := 0 })
    | none => none
  | .clear i =>
    -- event.h:228-236, 310-314
    match s.objs[i]? with
    | some o => some (s.set i { o with due := none, mask := 0, cleared := true })
    | none => none
  | .avail i => if i < s.objs.length then some s else none
  | .fire i =>
    -- timer_then, event.h:183-186 and 264-268; the timer does not repeat
    match s.objs[i]? with
    | some o =>
      match o.due with
      | some d =>
        if s.phase = .timers ∧ d ≤ s.lt then
          some (s.set i { o with due := none, mask := if o.kind = .timed then 0 else o.mask })
        else none
      | none => none
    | none => none
  | .ready i ev =>
    -- fd_then, event.h:270-279
    match s.objs[i]? with
    | some o =>
      if s.phase = .poll ∧ ev ≠ 0 ∧ ev &&& o.mask = ev then some (s.set i (start s o o.timeout)) else none
    | none => none
  | .error i =>
    -- fd_then with an error: libuv has stopped the uv_poll_t before (src/unix/poll.c)
    match s.objs[i]? with
    | some o =>
      if s.phase = .poll ∧ o.mask ≠ 0 then some (s.set i { start s o o.timeout with mask := 0 }) else none
    | none => none

def run (rnd : Rat → Rat) : St → List Act → Option St
  | s, [] => some s
  | s, a :: as => (step rnd s a).bind fun s' => run rnd s' as

end Timer
end Salticidae
