/-
Model of the event objects, include/salticidae/event.h:40-523: FdEvent, TimerEvent, SigEvent, CheckEvent (one handle of libuv each), TimedFdEvent (which is an FdEvent and
a TimerEvent), and the lifetime of the loop (EventContext).

The memory has event objects (and the temporary ones of the assignment operators and of std::swap), the handles of libuv (uv_poll_t, uv_timer_t, uv_signal_t, uv_check_t; allocated with new) and loops.
`none` as a result of an operation is undefined behaviour: the use of a handle that has been freed or is being closed, of a loop that has been deleted, of an object that does not exist, of an indeterminate value;
an object made where there is one.

libuv is modelled by what its documentation says: a handle that has been started and not stopped or closed calls the function it was started with; timers and one-shot signals are stopped before the
call; uv_close may be applied once, and the close callback is called later by the loop.

Simplified: the four classes with one handle, whose code is the same but for the names, are one (`Ev`, with its class); events are used by one thread; a loop is destroyed when there is no
EventContext for it, as C44 says of the reference counts; a start function of libuv does not fail (an init function can); a moved-from std::function is empty; the size
with which a handle is deleted (as a uv_handle_t, event.h:40, not as what it was made) is not modelled.
-/
namespace Salticidae
namespace Event

inductive Cls where
  | fd | timer | sig | check
  deriving DecidableEq, Repr

/-- Where an object is: a variable, or a temporary object of the library. -/
inductive Loc where
  | obj (o : Nat)
  | tmp (k : Nat)
  deriving DecidableEq, Repr

/-- The object itself, or the FdEvent or TimerEvent in a TimedFdEvent. -/
inductive Part where
  | self | fd | timer
  deriving DecidableEq, Repr

structure Ptr where
  loc : Loc
  part : Part
  deriving DecidableEq, Repr

/-- The function a handle has been started with: fd_then, timer_then, sig_then or check_then of the class; TimedFdEvent::fd_then; TimedFdEvent::timer_then. -/
inductive Then where
  | plain | timedFd | timedTimer
  deriving DecidableEq, Repr

inductive HSt where
  | raw      -- allocated
  | opened   -- initialised
  | closing  -- uv_close has been called
  | freed
  deriving DecidableEq, Repr

structure Hd where
  loop : Nat
  data : Option Ptr
  active : Bool
  once : Bool
  thn : Then
  ms : Nat
  st : HSt

/-- FdEvent (event.h:91-95), TimerEvent (178-181), SigEvent (360-363), CheckEvent (447-450).  `fd`: none is an indeterminate value. -/
structure Ev where
  cls : Cls
  ec : Option Nat
  fd : Option Nat
  ev : Option Nat
  cb : Option Nat

/-- TimedFdEvent without its base classes, event.h:261-262. -/
structure Tm where
  cb : Option Nat
  timeout : Option Nat

inductive Out where
  | call (h : Nat) (c : Option Nat) (fd : Option Nat)  -- callback c is called for handle h (none: an empty std::function, which throws)
  | timer (h ms : Nat)                                 -- a timer is started
  | closed (h : Nat)                                   -- uv_close
  | leaked (h : Nat)                                   -- an init function fails, the constructor throws
  | freed (h : Nat)                                    -- the close callback
  | loopFreed (l : Nat)
  | dropped (c : Nat)                                  -- the std::function with callback c is destroyed or overwritten
  | indet                                              -- an indeterminate value is copied
  deriving DecidableEq, Repr

structure St where
  hd : Nat → Hd
  nextH : Nat
  ev : Ptr → Option Ev
  tm : Loc → Option Tm
  live : List Ptr              -- the events there are
  ext : Nat → Nat              -- EventContexts of the user
  loops : Nat → Bool
  nextL : Nat
  running : List (Nat × Option Nat)
  out : List Out

def init : St where
  hd := fun _ => ⟨0, none, false, false, .plain, 0, .raw⟩
  nextH := 0
  ev := fun _ => none
  tm := fun _ => none
  live := []
  ext := fun _ => 0
  loops := fun _ => false
  nextL := 0
  running := []
  out := []

def upd {α β : Type} [DecidableEq α] (f : α → β) (a : α) (b : β) : α → β := fun x => if x = a then b else f x

def St.setHd (s : St) (h : Nat) (x : Hd) : St := { s with hd := upd s.hd h x }
def St.setEv (s : St) (p : Ptr) (e : Ev) : St := { s with ev := upd s.ev p (some e) }
def St.say (s : St) (l : List Out) : St := { s with out := s.out ++ l }

/-- ev->data = p; undefined when the handle has been freed. -/
def setData (s : St) (h : Nat) (p : Ptr) : Option St :=
  if (s.hd h).st = .freed then none else some (s.setHd h { s.hd h with data := some p })

/-- The same if there is a handle. -/
def setData? (s : St) (h : Option Nat) (p : Ptr) : Option St :=
  match h with
  | some h => setData s h p
  | none => some s

/-- No EventContext refers to loop l. -/
def noRef (s : St) (l : Nat) : Bool :=
  s.ext l == 0 && s.live.all fun p => match s.ev p with
    | some e => e.ec != some l
    | none => true

def handlesOf (s : St) (l : Nat) (p : HSt → Bool) : List Nat :=
  (List.range s.nextH).filter fun h => (s.hd h).loop == l && p (s.hd h).st

/-- _event_context_deleter, event.h:42-58: every handle is closed, the loop runs the close callbacks and is deleted.  Undefined when the loop is running. -/
def freeLoop (s : St) (l : Nat) : Option St :=
  if s.running.any (fun r => r.1 == l) then none
  else some (St.say { s with
    hd := fun h => if (s.hd h).loop = l ∧ ((s.hd h).st = .opened ∨ (s.hd h).st = .closing) then { s.hd h with st := .freed, active := false } else s.hd h
    loops := upd s.loops l false }
      ((handlesOf s l (· == .opened)).map .closed ++ (handlesOf s l (fun x => x == .opened || x == .closing)).map .freed ++ [.loopFreed l]))

/-- An EventContext is destroyed. -/
def release (s : St) (ec : Option Nat) : Option St :=
  match ec with
  | none => some s
  | some l => if s.loops l && noRef s l then freeLoop s l else some s

/-- uv_poll_stop, uv_timer_stop, uv_signal_stop, uv_check_stop. -/
def uvStop (s : St) (h : Nat) : Option St :=
  if (s.hd h).st = .opened then some (s.setHd h { s.hd h with active := false }) else none

/-- uv_close. -/
def uvClose (s : St) (h : Nat) : Option St :=
  if (s.hd h).st = .opened then some ((s.setHd h { s.hd h with active := false, st := .closing }).say [.closed h]) else none

/-- uv_poll_start, uv_timer_start, uv_signal_start, uv_signal_start_oneshot, uv_check_start. -/
def uvStart (s : St) (h : Nat) (f : Then) (once : Bool) (ms : Nat) : Option St :=
  if (s.hd h).st = .opened then some (s.setHd h { s.hd h with active := true, thn := f, once := once, ms := ms }) else none

/-- uv_poll_init, …; a new handle of loop l. -/
def newHd (s : St) (l : Nat) (ok : Bool) : St :=
  if ok then { s.setHd s.nextH ⟨l, none, false, false, .plain, 0, .opened⟩ with nextH := s.nextH + 1 }
  else ({ s.setHd s.nextH ⟨l, none, false, false, .plain, 0, .raw⟩ with nextH := s.nextH + 1 }).say [.leaked s.nextH]

def dropped (c : Option Nat) : List Out := (c.map Out.dropped).toList
def indetIf (b : Bool) : List Out := if b then [.indet] else []

/-! # A single event (FdEvent, TimerEvent, SigEvent, CheckEvent) -/

/-- FdEvent(), event.h:106; TimerEvent(), 189; SigEvent(), 371; CheckEvent(), 458. -/
def evEmpty (s : St) (p : Ptr) (c : Cls) : St := { s.setEv p ⟨c, none, none, none, none⟩ with live := p :: s.live }

/-- FdEvent(ec, fd, callback), event.h:107-113; TimerEvent(ec, callback), 190-196; 372-378; 459-465.  When the init function fails, the members constructed so far are destroyed (the EventContext, of which the caller
has another, and the callback) and the handle, of which there is only a pointer, is not. -/
def evNew (s : St) (p : Ptr) (c : Cls) (l : Nat) (cb : Option Nat) (fd : Nat) : Option St :=
  let h := s.nextH
  if s.loops l = false ∨ (s.ev p).isSome then none
  else
    let s := newHd s l true
    setData { s.setEv p ⟨c, some l, if c = .fd then some fd else none, some h, cb⟩ with live := p :: s.live } h p

/-- Move constructors, event.h:116-122, 199-205, 381-387, 468-474. -/
def evMove (s : St) (dst src : Ptr) : Option St :=
  match s.ev src with
  | none => none
  | some e =>
    if (s.ev dst).isSome then none else
    let s := (s.setEv dst e).setEv src { e with ec := none, ev := none, cb := none }
    setData? (St.say { s with live := dst :: s.live } (indetIf (e.cls = .fd ∧ e.fd = none))) e.ev dst

/-- swap, event.h:124-133, 207-215, 389-397, 476-484. -/
def evSwap (s : St) (p q : Ptr) : Option St :=
  match s.ev p, s.ev q with
  | some a, some b =>
    let s := ((s.setEv p b).setEv q a).say (indetIf (a.cls = .fd ∧ (a.fd = none ∨ b.fd = none)))
    (setData? s b.ev p).bind fun s => setData? s a.ev q
  | _, _ => none

/-- clear, event.h:146-154, 228-236, 410-418, 497-505. -/
def evClear (s : St) (p : Ptr) : Option St :=
  match s.ev p with
  | none => none
  | some e =>
    (match e.ev with
      | some h => (uvStop s h).bind (uvClose · h)
      | none => some s).map fun s => St.say (St.setEv s p { e with ev := none, cb := none }) (dropped e.cb)

/-- Destructors, event.h:144, 226, 408, 495. -/
def evDtor (s : St) (p : Ptr) : Option St :=
  (evClear s p).bind fun s =>
    match s.ev p with
    | none => none
    | some e => release { s with ev := upd s.ev p none, live := s.live.erase p } e.ec

/-- Move assignments, event.h:135-142, 217-224, 399-406, 486-493; the temporary object is at t. -/
def evAssign (t : Ptr) (s : St) (p q : Ptr) : Option St :=
  if p = q then some s
  else (evMove s t q).bind fun s => (evSwap s t p).bind (evDtor · t)

/-- set_callback, event.h:156-158, …: the old one is overwritten. -/
def evSetCb (s : St) (p : Ptr) (c : Nat) : Option St :=
  match s.ev p with
  | none => none
  | some e => some ((s.setEv p { e with cb := some c }).say (dropped e.cb))

/-- add, event.h:160-164, 242-246, 424-434 (add_once: once), 511-515. -/
def evAdd (s : St) (p : Ptr) (once : Bool) (ms : Nat) : Option St :=
  match s.ev p with
  | some e =>
    match e.ev with
    | some h =>
      match e.cls with
      | .timer => (uvStart s h .plain true ms).map (·.say [.timer h ms])
      | .sig => uvStart s h .plain once 0
      | _ => uvStart s h .plain false 0
    | none => none
  | none => none

/-- del, event.h:166-168, 248-250, 436-438, 517-519. -/
def evDel (s : St) (p : Ptr) : Option St :=
  match s.ev p with
  | some e => match e.ev with
    | some h => uvStop s h
    | none => some s
  | none => none

/-- std::swap of two events: a temporary object at t, two move assignments (their temporary objects at t'). -/
def stdSwap (t t' : Ptr) (s : St) (p q : Ptr) : Option St :=
  (evMove s t p).bind fun s => (evAssign t' s p q).bind fun s => (evAssign t' s q t).bind (evDtor · t)

/-! # TimedFdEvent -/

/-- TimedFdEvent(), event.h:282. -/
def tEmpty (s : St) (p : Loc) : St :=
  let s := evEmpty (evEmpty s ⟨p, .fd⟩ .fd) ⟨p, .timer⟩ .timer
  { s with tm := upd s.tm p (some ⟨none, none⟩) }

/-- ev_fd->data = ev_timer->data = p, if ev_fd != nullptr: event.h:296-300, 308-309, 310-311 (and, without the test, 287-288). -/
def tData (s : St) (p : Loc) : Option St :=
  match s.ev ⟨p, .fd⟩, s.ev ⟨p, .timer⟩ with
  | some f, some t =>
    match f.ev, t.ev with
    | some hf, some ht => (setData s ht ⟨p, .self⟩).bind (setData · hf ⟨p, .self⟩)
    | some _, none => none
    | none, _ => some s
  | _, _ => none

/-- TimedFdEvent(ec, fd, callback), event.h:283-289. -/
def tNew (s : St) (p : Loc) (l : Nat) (cb : Option Nat) (fd : Nat) : Option St :=
  (evNew s ⟨p, .fd⟩ .fd l none fd).bind fun s => (evNew s ⟨p, .timer⟩ .timer l none 0).bind fun s =>
    tData { s with tm := upd s.tm p (some ⟨cb, none⟩) } p

/-- Move constructor, event.h:291-301. -/
def tMove (s : St) (dst src : Loc) : Option St :=
  (evMove s ⟨dst, .fd⟩ ⟨src, .fd⟩).bind fun s => (evMove s ⟨dst, .timer⟩ ⟨src, .timer⟩).bind fun s =>
    match s.tm src with
    | none => none
    | some x => tData (St.say { s with tm := upd (upd s.tm dst (some x)) src (some { x with cb := none }) } (indetIf (x.timeout = none))) dst

/-- swap, event.h:303-312. -/
def tSwap (s : St) (p q : Loc) : Option St :=
  (stdSwap ⟨.tmp 1, .self⟩ ⟨.tmp 2, .self⟩ s ⟨p, .fd⟩ ⟨q, .fd⟩).bind fun s =>
  (stdSwap ⟨.tmp 1, .self⟩ ⟨.tmp 2, .self⟩ s ⟨p, .timer⟩ ⟨q, .timer⟩).bind fun s =>
    match s.tm p, s.tm q with
    | some x, some y =>
      (tData (St.say { s with tm := upd (upd s.tm p (some y)) q (some x) } (indetIf (x.timeout = none ∨ y.timeout = none))) p).bind (tData · q)
    | _, _ => none

/-- clear, event.h:325-329. -/
def tClear (s : St) (p : Loc) : Option St :=
  (evClear s ⟨p, .timer⟩).bind fun s => (evClear s ⟨p, .fd⟩).bind fun s =>
    match s.tm p with
    | none => none
    | some x => some (St.say { s with tm := upd s.tm p (some { x with cb := none }) } (dropped x.cb))

/-- Destructor, event.h:323, and those of the base classes. -/
def tDtor (s : St) (p : Loc) : Option St :=
  (tClear s p).bind fun s => (evDtor { s with tm := upd s.tm p none } ⟨p, .timer⟩).bind (evDtor · ⟨p, .fd⟩)

/-- Move assignment, event.h:314-321. -/
def tAssign (s : St) (p q : Loc) : Option St :=
  if p = q then some s
  else (tMove s (.tmp 0) q).bind fun s => (tSwap s (.tmp 0) p).bind (tDtor · (.tmp 0))

/-- set_callback, event.h:336-338. -/
def tSetCb (s : St) (p : Loc) (c : Nat) : Option St :=
  match s.tm p with
  | none => none
  | some x => some (St.say { s with tm := upd s.tm p (some { x with cb := some c }) } (dropped x.cb))

/-- add, event.h:340-347. -/
def tAdd (s : St) (p : Loc) (ms : Nat) : Option St :=
  match s.tm p, s.ev ⟨p, .fd⟩, s.ev ⟨p, .timer⟩ with
  | some x, some f, some t =>
    match f.ev, t.ev with
    | some hf, some ht =>
      (uvStart { s with tm := upd s.tm p (some { x with timeout := some ms }) } ht .timedTimer true ms).bind fun s => uvStart (s.say [.timer ht ms]) hf .timedFd false 0
    | _, _ => none
  | _, _, _ => none

/-- del, event.h:349-352. -/
def tDel (s : St) (p : Loc) : Option St := (evDel s ⟨p, .timer⟩).bind (evDel · ⟨p, .fd⟩)

/-! # The loop -/

/-- fd_then, timer_then, sig_then, check_then; event.h:97-102, 183-186, 364-367, 451-454: handle h calls the callback of the event at p. -/
def thenPlain (s : St) (h : Nat) (p : Ptr) : Option St :=
  match s.ev p with
  | some e =>
    if e.cls = .fd ∧ e.fd = none then none
    else some (St.say { s with running := ((s.hd h).loop, e.cb) :: s.running } [.call h e.cb (if e.cls = .fd then e.fd else none)])
  | none => none

/-- TimedFdEvent::fd_then, event.h:270-279. -/
def thenTimedFd (s : St) (h : Nat) (p : Loc) : Option St :=
  match s.tm p, s.ev ⟨p, .fd⟩, s.ev ⟨p, .timer⟩ with
  | some x, some f, some t =>
    match t.ev, x.timeout, f.fd with
    | some ht, some ms, some n =>
      (uvStop s ht).bind fun s => (uvStart s ht .timedTimer true ms).map fun s =>
        St.say { s with running := ((s.hd h).loop, x.cb) :: s.running } [.timer ht ms, .call h x.cb (some n)]
    | _, _, _ => none
  | _, _, _ => none

/-- TimedFdEvent::timer_then, event.h:264-268. -/
def thenTimedTimer (s : St) (h : Nat) (p : Loc) : Option St :=
  match s.tm p, s.ev ⟨p, .fd⟩ with
  | some x, some f =>
    match f.ev, f.fd with
    | some hf, some n => (uvStop s hf).map fun s => St.say { s with running := ((s.hd h).loop, x.cb) :: s.running } [.call h x.cb (some n)]
    | none, some n => some (St.say { s with running := ((s.hd h).loop, x.cb) :: s.running } [.call h x.cb (some n)])
    | _, none => none
  | _, _ => none

/-- The loop has an event for handle h: it calls the function the handle was started with, which takes the handle's data for the address of an object. -/
def fire (s : St) (h : Nat) : Option St :=
  if (s.hd h).active && (s.hd h).st == .opened && decide (0 < s.ext (s.hd h).loop) then
    let s := s.setHd h { s.hd h with active := !(s.hd h).once }
    match (s.hd h).data with
    | some ⟨p, .self⟩ =>
      match (s.hd h).thn with
      | .plain => thenPlain s h ⟨p, .self⟩
      | .timedFd => thenTimedFd s h p
      | .timedTimer => thenTimedTimer s h p
    | _ => none
  else some s

/-- The loop calls _on_uv_handle_close, event.h:40. -/
def closeCb (s : St) (h : Nat) : St :=
  if (s.hd h).st = .closing then (s.setHd h { s.hd h with st := .freed }).say [.freed h] else s

/-! # Programs -/

/-- The type of an object. -/
inductive Kind where
  | one (c : Cls)
  | timed
  deriving DecidableEq, Repr

inductive Op where
  | ctx                                                                            -- EventContext()
  | copyCtx (l : Nat) | dropCtx (l : Nat)                                          -- a copy of an EventContext is made; one is destroyed
  | empty (o : Nat) (k : Kind)                                                     -- T o;
  | new (o : Nat) (k : Kind) (l : Nat) (cb : Option Nat) (fd : Nat) (ok : Bool)    -- T o(ec, [fd,] cb); ok: libuv's init function succeeds
  | move (o p : Nat) (k : Kind)                                                    -- T o(std::move(p));
  | assign (o p : Nat) (k : Kind)                                                  -- o = std::move(p);
  | swap (o p : Nat) (k : Kind)                                                    -- o.swap(p);
  | clear (o : Nat) (k : Kind)
  | destroy (o : Nat) (k : Kind)
  | setCb (o : Nat) (k : Kind) (c : Nat)
  | add (o : Nat) (k : Kind) (once : Bool) (ms : Nat)
  | del (o : Nat) (k : Kind)
  | fire (h : Nat)                                                                 -- the loop has an event
  | done                                                                           -- the callback that was called last returns
  | closeCb (h : Nat)                                                              -- the loop calls a close callback
  deriving DecidableEq, Repr

def step (s : St) : Op → Option St
  | .ctx => some { s with loops := upd s.loops s.nextL true, ext := upd s.ext s.nextL 1, nextL := s.nextL + 1 }
  | .copyCtx l => some { s with ext := upd s.ext l (s.ext l + 1) }
  | .dropCtx l => release { s with ext := upd s.ext l (s.ext l - 1) } (some l)
  | .empty o (.one c) => some (evEmpty s ⟨.obj o, .self⟩ c)
  | .empty o .timed => some (tEmpty s (.obj o))
  | .new o (.one c) l cb fd true => evNew s ⟨.obj o, .self⟩ c l cb fd
  | .new o .timed l cb fd true => tNew s (.obj o) l cb fd
  | .new _ _ l _ _ false => some (newHd s l false)
  | .move o p (.one _) => evMove s ⟨.obj o, .self⟩ ⟨.obj p, .self⟩
  | .move o p .timed => tMove s (.obj o) (.obj p)
  | .assign o p (.one _) => evAssign ⟨.tmp 0, .self⟩ s ⟨.obj o, .self⟩ ⟨.obj p, .self⟩
  | .assign o p .timed => tAssign s (.obj o) (.obj p)
  | .swap o p (.one _) => evSwap s ⟨.obj o, .self⟩ ⟨.obj p, .self⟩
  | .swap o p .timed => tSwap s (.obj o) (.obj p)
  | .clear o (.one _) => evClear s ⟨.obj o, .self⟩
  | .clear o .timed => tClear s (.obj o)
  | .destroy o (.one _) => evDtor s ⟨.obj o, .self⟩
  | .destroy o .timed => tDtor s (.obj o)
  | .setCb o (.one _) c => evSetCb s ⟨.obj o, .self⟩ c
  | .setCb o .timed c => tSetCb s (.obj o) c
  | .add o (.one _) once ms => evAdd s ⟨.obj o, .self⟩ once ms
  | .add o .timed _ ms => tAdd s (.obj o) ms
  | .del o (.one _) => evDel s ⟨.obj o, .self⟩
  | .del o .timed => tDel s (.obj o)
  | .fire h => fire s h
  | .done => some { s with running := s.running.tail }
  | .closeCb h => some (closeCb s h)

def run : St → List Op → Option St
  | s, [] => some s
  | s, a :: as => (step s a).bind (run · as)

end Event
end Salticidae
