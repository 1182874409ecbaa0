import Verif.Model.Event
/-!
Events as values: what a variable holds is an event, or nothing; moving it takes it to another variable, and an event that no variable holds any more is closed.
(The operations, and what is seen of them, are those of Model/Event.)
-/
namespace Salticidae
namespace Spec.Event
open Salticidae.Event (Kind Cls Op Out upd)

/-- An event. -/
structure Val where
  h : Nat             -- its handle of libuv
  t : Option Nat      -- that of its timer, for a TimedFdEvent
  loop : Nat
  cb : Option Nat     -- its callback
  fd : Nat
  on : Bool           -- has been added
  once : Bool         -- is deleted when it happens
  ton : Bool          -- the timer is running
  ms : Nat            -- the timeout

structure Sp where
  var : Nat → Option (Kind × Option Val)  -- the variables there are, and what they hold
  names : List Nat
  nextH : Nat
  nextL : Nat
  ext : Nat → Nat                         -- number of EventContexts of a loop that the user has
  running : List (Nat × Option Nat)       -- callbacks being executed
  out : List Out

def init : Sp := ⟨fun _ => none, [], 0, 0, fun _ => 0, [], []⟩

def Sp.set (s : Sp) (o : Nat) (x : Option (Kind × Option Val)) : Sp := { s with var := upd s.var o x }
def Sp.say (s : Sp) (l : List Out) : Sp := { s with out := s.out ++ l }

/-- What is in a variable is closed. -/
def closing : Option Val → List Out
  | none => []
  | some v => (v.t.toList ++ [v.h]).map .closed

def owns (h : Nat) : Option (Kind × Option Val) → Bool
  | some (_, some v) => v.h == h || v.t == some h
  | _ => false

/-- The variable whose event has handle h. -/
def holder (s : Sp) (h : Nat) : Option Nat := s.names.find? fun o => owns h (s.var o)

/-- The event in variable o happens (handle h). -/
def happen (s : Sp) (o h : Nat) (k : Kind) (v : Val) : Sp :=
  if s.ext v.loop = 0 then s else
  match k with
  | .one c =>
    if v.on then
      { (s.set o (some (k, some { v with on := !v.once }))).say [.call h v.cb (if c = .fd then some v.fd else none)] with running := (v.loop, v.cb) :: s.running }
    else s
  | .timed =>
    if h = v.h then
      if v.on then { (s.set o (some (k, some { v with ton := true }))).say (v.t.toList.map (.timer · v.ms) ++ [.call h v.cb (some v.fd)]) with running := (v.loop, v.cb) :: s.running }
      else s
    else
      if v.ton then { (s.set o (some (k, some { v with on := false, ton := false }))).say [.call h v.cb (some v.fd)] with running := (v.loop, v.cb) :: s.running }
      else s

/-- `none`: the program may not do that. -/
def step (s : Sp) : Op → Option Sp
  | .ctx => some { s with nextL := s.nextL + 1, ext := upd s.ext s.nextL 1 }
  | .copyCtx l => if s.ext l = 0 then none else some { s with ext := upd s.ext l (s.ext l + 1) }
  | .dropCtx l =>
    -- the one with which the loop is being run may not be destroyed in a callback
    if s.ext l = 0 ∨ (s.ext l = 1 ∧ s.running.any (·.1 == l)) then none else some { s with ext := upd s.ext l (s.ext l - 1) }
  | .empty o k => if (s.var o).isSome then none else some { s.set o (some (k, none)) with names := o :: s.names }
  | .new o k l cb fd ok =>
    if (s.var o).isSome ∨ s.ext l = 0 then none
    else if ok then
      let v : Val := ⟨s.nextH, if k = .timed then some (s.nextH + 1) else none, l, cb, fd, false, false, false, 0⟩
      some { s.set o (some (k, some v)) with names := o :: s.names, nextH := s.nextH + (if k = .timed then 2 else 1) }
    else some ({ s with nextH := s.nextH + 1 } |>.say [.leaked s.nextH])
  | .move o p k =>
    match s.var o, s.var p with
    | none, some (k', v) => if k' = k then some { (s.set p (some (k, none))).set o (some (k, v)) with names := o :: s.names } else none
    | _, _ => none
  | .assign o p k =>
    match s.var o, s.var p with
    | some (k1, v1), some (k2, v2) =>
      if k1 = k ∧ k2 = k then
        if o = p then some s else some (((s.set p (some (k, none))).set o (some (k, v2))).say (closing v1))
      else none
    | _, _ => none
  | .swap o p k =>
    match s.var o, s.var p with
    | some (k1, v1), some (k2, v2) => if k1 = k ∧ k2 = k then some ((s.set p (some (k, v1))).set o (some (k, v2))) else none
    | _, _ => none
  | .clear o k =>
    match s.var o with
    | some (k', v) => if k' = k then some ((s.set o (some (k, none))).say (closing v)) else none
    | none => none
  | .destroy o k =>
    match s.var o with
    | some (k', v) => if k' = k then some ((s.set o none).say (closing v)) else none
    | none => none
  | .setCb o k c =>
    match s.var o with
    | some (k', v) => if k' = k then some (s.set o (some (k, v.map ({ · with cb := some c })))) else none
    | none => none
  | .add o k once ms =>
    match s.var o with
    | some (k', some v) =>
      if k' = k then match k with
        | .one .timer => some ((s.set o (some (k, some { v with on := true, once := true }))).say [.timer v.h ms])
        | .one .sig => some (s.set o (some (k, some { v with on := true, once := once })))
        | .one _ => some (s.set o (some (k, some { v with on := true, once := false })))
        | .timed => some ((s.set o (some (k, some { v with on := true, once := false, ton := true, ms := ms }))).say (v.t.toList.map (.timer · ms)))
      else none
    | _ => none
  | .del o k =>
    match s.var o with
    | some (k', v) => if k' = k then some (s.set o (some (k, v.map ({ · with on := false, ton := false })))) else none
    | none => none
  | .fire h =>
    match holder s h with
    | some o => match s.var o with
      | some (k, some v) => some (happen s o h k v)
      | _ => some s
    | none => some s
  | .done => some { s with running := s.running.tail }
  | .closeCb _ => some s

def run : Sp → List Op → Option Sp
  | s, [] => some s
  | s, a :: as => (step s a).bind (run · as)

/-- What a program and the loop see: callbacks called, timers started, handles closed, constructors that fail. -/
def seen (l : List Out) : List Out := l.filter fun | .call .. | .timer .. | .closed _ | .leaked _ => true | _ => false

end Spec.Event
end Salticidae
