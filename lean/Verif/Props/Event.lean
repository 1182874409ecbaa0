import Verif.Spec.Event
import Verif.Lemmas.EventCb
/-!
Properties C72, C78, C79: event objects (FdEvent, TimerEvent, SigEvent, CheckEvent, TimedFdEvent) and EventContexts.

A program is a list of operations on variables that the value semantics of Spec/Event allows (in which a variable holds an event or nothing), with the events and the close callbacks of the loop anywhere.
`Event.run` is the memory of the code, with handles that point to objects; its result is `none` if it uses a handle or a loop that has been freed, an object that does not exist or a value that is not there.
-/
namespace Salticidae
open Event

namespace Event

/-- Variable o holds the event with handle h. -/
def Holds (a : Spec.Event.Sp) (o h : Nat) : Prop := ∃ k v, a.var o = some (k, some v) ∧ (v.h = h ∨ v.t = some h)

theorem owns_holds {a : Spec.Event.Sp} {o h : Nat} : Spec.Event.owns h (a.var o) = true ↔ Holds a o h := by
  constructor
  · intro k
    match hv : a.var o, k with
    | some (k', some v), k => exact ⟨k', v, hv, by simpa [Spec.Event.owns] using k⟩
  · rintro ⟨k, v, e, h⟩
    rw [e]; simpa [Spec.Event.owns] using h

theorem R.holds {s : St} {a : Spec.Event.Sp} (r : R s a) {h : Nat} (ho : (s.hd h).st = .opened) : ∃ o, Holds a o h := by
  cases hh : Spec.Event.holder a h with
  | none => exact absurd ho (r.holder_none hh)
  | some o => exact ⟨o, owns_holds.mp (by simpa using List.find?_some hh)⟩

theorem R.holds_open {s : St} {a : Spec.Event.Sp} (r : R s a) {o h : Nat} (k : Holds a o h) : (s.hd h).st = .opened ∧ h < s.nextH := by
  obtain ⟨p, e, h1, h2⟩ := ((r.var o).owns h).mp (owns_holds.mpr k)
  exact ⟨(r.low.own _ e h h1 h2).1, (r.low.own _ e h h1 h2).2.2⟩

theorem R.holds_inj {s : St} {a : Spec.Event.Sp} (r : R s a) {o o' h : Nat} (k : Holds a o h) (k' : Holds a o' h) : o' = o := by
  obtain ⟨p, e, h1, h2⟩ := ((r.var o).owns h).mp (owns_holds.mpr k)
  obtain ⟨p', e', h1', h2'⟩ := ((r.var o').owns h).mp (owns_holds.mpr k')
  have := r.low.inj _ _ _ _ _ h1 h1' h2 h2'
  injection this with this _
  injection this with this
  exact this.symm

theorem R.holds_data {s : St} {a : Spec.Event.Sp} (r : R s a) {o h : Nat} (k : Holds a o h) : (s.hd h).data = some ⟨.obj o, .self⟩ := by
  obtain ⟨k, v, e, hh⟩ := k
  have hv := r.var o
  rw [e] at hv
  match k, hv with
  | .one c, ⟨_, _, _, x, hx, _, ht, _, _, _, _, hk⟩ =>
    rcases hh with rfl | hh
    · exact hk.data
    · rw [ht] at hh; cases hh
  | .timed, ⟨_, f, t, x, _, _, _, _, _, ht, h1, _, _, _, _, _, _, _, k1, k2⟩ =>
    rcases hh with rfl | hh
    · exact k1.data
    · rw [h1] at hh; cases hh; exact k2.data

theorem R.holds_loop {s : St} {a : Spec.Event.Sp} (r : R s a) {o : Nat} {k : Kind} {v : Spec.Event.Val} (e : a.var o = some (k, some v)) : s.loops v.loop = true := by
  have hv := r.var o
  rw [e] at hv
  match k, hv with
  | .one c, ⟨_, _, _, x, hx, _, _, _, hl, _⟩ => exact r.low.lp _ _ _ hx hl
  | .timed, ⟨_, f, t, x, hf, _, _, _, _, ht, h1, _, _, hl, _⟩ => exact r.low.lp _ _ _ hf hl

end Event

/-! # C72 -/

/-- The programs that C72 is about: they are allowed, and lead to values a and memory s. -/
def Event.Program (ops : List Op) (a : Spec.Event.Sp) (s : St) : Prop := Spec.Event.run Spec.Event.init ops = some a ∧ Event.run Event.init ops = some s

theorem Event.Program.R {ops : List Op} {a : Spec.Event.Sp} {s : St} (p : Program ops a s) : R s a ∧ G s := by
  obtain ⟨s', h1, h2⟩ := R_init.run ops p.1
  rw [p.2] at h1; cases h1
  exact ⟨h2, R_init.run_G G_init ops p.1 p.2⟩

/-- **C72** Any program on events, with any events of the loop: nothing that has been freed is used, and callbacks are called (with what descriptor), timers started (with what time) and handles closed
as if events were values. -/
theorem C72_semantics (ops : List Op) (a : Spec.Event.Sp) (h : Spec.Event.run Spec.Event.init ops = some a) :
    ∃ s, Event.run Event.init ops = some s ∧ Spec.Event.seen s.out = a.out := by
  obtain ⟨s, h1, h2⟩ := R_init.run ops h
  exact ⟨s, h1, h2.out⟩

/-- A TimedFdEvent is moved while it is running, then happens: the timer is restarted, and the callback is called once more when that expires. -/
example : (Spec.Event.run Spec.Event.init [.ctx, .new 0 .timed 0 (some 7) 5 true, .add 0 .timed false 30, .move 1 0 .timed, .destroy 0 .timed, .fire 0, .done, .fire 1, .done, .clear 1 .timed]).map (·.out)
    = some [.timer 1 30, .timer 1 30, .call 0 (some 7) (some 5), .call 1 (some 7) (some 5), .closed 1, .closed 0] := by decide

/-- **C72** A handle that is open belongs to one variable, and it is that which it calls; a variable's handles are open. -/
theorem C72_one_owner (ops : List Op) (a : Spec.Event.Sp) (s : St) (p : Program ops a s) (h : Nat) :
    ((s.hd h).st = .opened ↔ ∃ o, Holds a o h) ∧
    ∀ o, Holds a o h → (s.hd h).data = some ⟨.obj o, .self⟩ ∧ ∀ o', Holds a o' h → o' = o := by
  obtain ⟨r, _⟩ := p.R
  exact ⟨⟨r.holds, fun ⟨o, k⟩ => (r.holds_open k).1⟩, fun o k => ⟨r.holds_data k, fun o' k' => r.holds_inj k k'⟩⟩

/-- Two FdEvents are swapped: handle 0, that was made for variable 0, calls variable 1. -/
example : (Event.run Event.init [.ctx, .new 0 (.one .fd) 0 (some 7) 5 true, .new 1 (.one .fd) 0 (some 8) 6 true, .swap 0 1 (.one .fd)]).map (fun s => ((s.hd 0).data, (s.hd 1).data))
    = some (some ⟨.obj 1, .self⟩, some ⟨.obj 0, .self⟩) := by decide

/-- **C72** Each handle is closed once, when no variable holds it any more, and not while one does; and it is freed at most once, after it has been closed.  (A handle that libuv has failed to initialise is neither.) -/
theorem C72_closed_once (ops : List Op) (a : Spec.Event.Sp) (s : St) (p : Program ops a s) (h : Nat) (hh : h < a.nextH) :
    s.out.count (.freed h) ≤ s.out.count (.closed h) ∧
    ((∃ o, Holds a o h) ∨ .leaked h ∈ a.out → s.out.count (.closed h) = 0) ∧
    (¬ ((∃ o, Holds a o h) ∨ .leaked h ∈ a.out) → s.out.count (.closed h) = 1) := by
  obtain ⟨r, g⟩ := p.R
  have h1 := g.fr h
  have h2 := g.cl h
  have lk : Out.leaked h ∈ a.out ↔ (s.hd h).st = .raw := by
    rw [← r.out]
    have : Out.leaked h ∈ Spec.Event.seen s.out ↔ Out.leaked h ∈ s.out := by simp [Spec.Event.seen]
    rw [this, g.lk h, r.nextH]; simp [hh]
  have hol : (∃ o, Holds a o h) ↔ (s.hd h).st = .opened := ⟨fun ⟨o, k⟩ => (r.holds_open k).1, r.holds⟩
  rw [h1, h2]
  simp only [hol, lk]
  cases (s.hd h).st <;> simp

/-- Assignment to an event in use: the handle it had is closed, the other one is not. -/
example : (Event.run Event.init [.ctx, .new 0 (.one .timer) 0 (some 7) 5 true, .new 1 (.one .timer) 0 (some 8) 6 true, .assign 0 1 (.one .timer), .destroy 1 (.one .timer), .closeCb 0]).map (·.out)
    = some [.closed 0, .dropped 7, .freed 0] := by decide

/-- **C72** A loop exists as long as there is an EventContext for it or a variable with an event of it, and is deleted once. -/
theorem C72_loop_alive (ops : List Op) (a : Spec.Event.Sp) (s : St) (p : Program ops a s) (l : Nat) :
    s.out.count (.loopFreed l) ≤ 1 ∧ ((0 < a.ext l ∨ ∃ o k v, a.var o = some (k, some v) ∧ v.loop = l) → Out.loopFreed l ∉ s.out) := by
  obtain ⟨r, g⟩ := p.R
  have h1 := g.lf l
  refine ⟨by rw [h1]; split <;> omega, fun h => ?_⟩
  have hl : s.loops l = true := by
    rcases h with h | ⟨o, k, v, e, rfl⟩
    · exact r.low.ext l (by rw [r.ext]; exact h)
    · exact r.holds_loop e
  rw [hl] at h1
  simpa [List.count_eq_zero] using h1

/-- **C72** When all events and all EventContexts have been destroyed, every loop has been deleted and every handle closed and freed, except those that libuv has failed to initialise. -/
theorem C72_all_freed (ops : List Op) (a : Spec.Event.Sp) (s : St) (p : Program ops a s) (hv : ∀ o, a.var o = none) (he : ∀ l, a.ext l = 0) :
    (∀ l < a.nextL, s.out.count (.loopFreed l) = 1) ∧
    ∀ h < a.nextH, .leaked h ∉ a.out → s.out.count (.closed h) = 1 ∧ s.out.count (.freed h) = 1 := by
  obtain ⟨r, g⟩ := p.R
  have nv : ∀ p e, s.ev p ≠ some e := fun ⟨p, pt⟩ e h => by
    cases p with
    | obj o => have := r.var o; rw [hv o] at this; rw [this.1] at h; cases h
    | tmp k => rw [(r.tmp k).1] at h; cases h
  have nl : ∀ l, s.loops l = false := fun l => by
    cases hl : s.loops l with
    | false => rfl
    | true =>
      rcases g.rf l hl (by simp) with h | ⟨p, e, h, _⟩
      · rw [r.ext, he l] at h; cases h
      · exact absurd h (nv p e)
  refine ⟨fun l h => by rw [g.lf l, r.nextL, nl l]; simp [h], fun h hh hl => ?_⟩
  have hr : (s.hd h).st ≠ .raw := fun e => hl (by
    rw [← r.out]
    have := (g.lk h).mpr ⟨by rw [r.nextH]; exact hh, e⟩
    simpa [Spec.Event.seen] using this)
  have hf : (s.hd h).st = .freed := by
    cases hs : (s.hd h).st with
    | raw => exact absurd hs hr
    | opened => have := g.lp h (.inl hs); rw [nl] at this; cases this
    | closing => have := g.lp h (.inr hs); rw [nl] at this; cases this
    | freed => rfl
  rw [g.cl h, g.fr h, hf]; simp

/-- The EventContext is destroyed before the event: the loop stays until the event is destroyed, which frees both. -/
example : (Event.run Event.init [.ctx, .new 0 .timed 0 (some 7) 5 true, .add 0 .timed false 10, .dropCtx 0, .destroy 0 .timed]).map (·.out)
    = some [.timer 1 10, .closed 1, .closed 0, .dropped 7, .freed 0, .freed 1, .loopFreed 0] := by decide
example : (Spec.Event.run Spec.Event.init [.ctx, .new 0 .timed 0 (some 7) 5 true, .add 0 .timed false 10, .dropCtx 0, .destroy 0 .timed]).map (fun a => ((a.var 0).isNone, a.ext 0, a.nextH, a.nextL, a.out))
    = some (true, 0, 2, 1, [.timer 1 10, .closed 1, .closed 0]) := by decide

/-! # C78 -/

/-- **C78** No value is read that has not been set. -/
def C78_statement : Prop := ∀ ops a s, Program ops a s → Out.indet ∉ s.out

/-- `TimedFdEvent a; TimedFdEvent b(ec, fd, cb); a = std::move(b);`: the descriptor of a and the timeouts of both are copied.  (So is it in conn.cpp:428, with the event that connects.) -/
def Event.indetProgram : List Op := [.ctx, .empty 0 .timed, .new 1 .timed 0 (some 7) 5 true, .assign 0 1 .timed]

/-- **C78** is violated. -/
theorem C78_violated : ¬ C78_statement := fun h => by
  have hs : (Event.run Event.init indetProgram).isSome = true := by decide
  have ha : (Spec.Event.run Spec.Event.init indetProgram).isSome = true := by decide
  obtain ⟨s, es⟩ := Option.isSome_iff_exists.mp hs
  obtain ⟨a, ea⟩ := Option.isSome_iff_exists.mp ha
  have : ((Event.run Event.init indetProgram).map (fun s => decide (Out.indet ∈ s.out))) = some true := by decide
  rw [es] at this
  exact h _ a s ⟨ea, es⟩ (by simpa using this)

/-- The same with an FdEvent, as ConnPool::listen does with ev_listen (src/conn.cpp:387, include/salticidae/conn.h:207). -/
theorem C78_violated_fd : ∃ ops a s, Program ops a s ∧ (∀ o ∈ ops, ∀ x, o ≠ .empty x .timed) ∧ Out.indet ∈ s.out := by
  have hs : (Event.run Event.init [.ctx, .empty 0 (.one .fd), .new 1 (.one .fd) 0 (some 7) 5 true, .assign 0 1 (.one .fd)]).isSome = true := by decide
  have ha : (Spec.Event.run Spec.Event.init [.ctx, .empty 0 (.one .fd), .new 1 (.one .fd) 0 (some 7) 5 true, .assign 0 1 (.one .fd)]).isSome = true := by decide
  obtain ⟨s, es⟩ := Option.isSome_iff_exists.mp hs
  obtain ⟨a, ea⟩ := Option.isSome_iff_exists.mp ha
  have : ((Event.run Event.init [.ctx, .empty 0 (.one .fd), .new 1 (.one .fd) 0 (some 7) 5 true, .assign 0 1 (.one .fd)]).map (fun s => decide (Out.indet ∈ s.out))) = some true := by decide
  rw [es] at this
  exact ⟨_, a, s, ⟨ea, es⟩, by simp, by simpa using this⟩

theorem Event.run_indet {s : St} {a : Spec.Event.Sp} (r : R s a) (z : Fd s) (hi : Out.indet ∉ s.out) (ops : List Op) (hp : ∀ o ∈ ops, plainOp o = true)
    {a' : Spec.Event.Sp} {s' : St} (ha : Spec.Event.run a ops = some a') (hs : Event.run s ops = some s') : Out.indet ∉ s'.out := by
  induction ops generalizing s a with
  | nil => cases hs; exact hi
  | cons x ops ih =>
    simp only [Spec.Event.run, Event.run, Option.bind_eq_some_iff] at ha hs
    obtain ⟨a1, b1, b2⟩ := ha
    obtain ⟨s1, c1, c2⟩ := hs
    obtain ⟨s1', d1, r1⟩ := r.step x b1
    rw [c1] at d1; cases d1
    have hk : ∀ o p c, ∀ u v, s.ev ⟨.obj o, .self⟩ = some u → s.ev ⟨.obj p, .self⟩ = some v → x = .swap o p (.one c) ∨ x = .assign o p (.one c) → u.cls = v.cls := fun o p c u v hu hv h => by
      have : ∃ v1 v2, a.var o = some (.one c, v1) ∧ a.var p = some (.one c, v2) := by
        rcases h with rfl | rfl
        all_goals
          simp only [Spec.Event.step] at b1
          split at b1
          · split at b1
            · rename_i k1 v1 k2 v2 e1 e2 h; rw [h.1] at e1; rw [h.2] at e2; exact ⟨v1, v2, e1, e2⟩
            · cases b1
          · cases b1
      obtain ⟨v1, v2, e1, e2⟩ := this
      have q1 := r.var o; rw [e1] at q1
      have q2 := r.var p; rw [e2] at q2
      obtain ⟨_, _, _, e, he, hc, _⟩ := q1
      obtain ⟨_, _, _, e', he', hc', _⟩ := q2
      rw [hu] at he; cases he
      rw [hv] at he'; cases he'
      rw [hc, hc']
    obtain ⟨z1, o, ho, hP⟩ := step_indet z hk (hp x (by simp)) c1
    refine ih r1 z1 (fun h => ?_) (fun o ho => hp o (by simp [ho])) b2 c2
    rw [ho, List.mem_append] at h
    rcases h with h | h
    · exact hi h
    · exact hP _ h

/-- **C78** partial: it holds of programs without TimedFdEvents and without FdEvents that are made without a descriptor.
(Missing: the others.  C72_semantics says of all programs that the descriptors and the times that reach libuv and the callbacks are those given.) -/
theorem C78_partial (ops : List Op) (a : Spec.Event.Sp) (s : St) (p : Program ops a s) (h : ∀ o ∈ ops, plainOp o = true) : Out.indet ∉ s.out :=
  run_indet R_init (fun _ _ h => by cases h) (by simp [Event.init]) ops h p.1 p.2

example : ∀ o ∈ [Op.ctx, .empty 0 (.one .timer), .new 1 (.one .fd) 0 (some 7) 5 true, .move 2 1 (.one .fd), .swap 1 2 (.one .fd), .fire 0], plainOp o = true := by decide

/-! # C79 -/

/-- Callbacks that the operation makes. -/
def Event.makes : Op → List Nat
  | .new _ _ _ (some c) _ _ => [c]
  | .setCb _ _ c => [c]
  | _ => []

/-- **C79** A callback exists as long as it is running (callbacks having different names). -/
def C79_statement : Prop := ∀ ops a s, (ops.flatMap makes).Nodup → Program ops a s → ∀ l c, (l, some c) ∈ s.running → Out.dropped c ∉ s.out

def Event.selfClear : List Op := [.ctx, .new 0 (.one .timer) 0 (some 7) 0 true, .add 0 (.one .timer) false 0, .fire 0, .clear 0 (.one .timer)]

/-- **C79** is violated: a timer's callback clears the timer, which destroys the std::function that is being called, with what it has captured.  (So is it if it destroys the timer, assigns to it or
sets its callback; or a queue's handler unregisters itself, event.h:629.) -/
theorem C79_violated : ¬ C79_statement := fun h => by
  have hs : (Event.run Event.init selfClear).isSome = true := by decide
  have ha : (Spec.Event.run Spec.Event.init selfClear).isSome = true := by decide
  obtain ⟨s, es⟩ := Option.isSome_iff_exists.mp hs
  obtain ⟨a, ea⟩ := Option.isSome_iff_exists.mp ha
  have h1 : ((Event.run Event.init selfClear).map (fun s => decide ((0, some 7) ∈ s.running ∧ Out.dropped 7 ∈ s.out))) = some true := by decide
  rw [es] at h1
  have h1 : (0, some 7) ∈ s.running ∧ Out.dropped 7 ∈ s.out := by simpa using h1
  exact h _ a s (by decide) ⟨ea, es⟩ 0 7 h1.1 h1.2

/-- **C79** partial: a callback is destroyed only by an operation that clears, destroys, assigns to or sets the callback of the variable that has it: moving and swapping events, and anything done to others, leave it as it is.
(Missing: it is, if the callback itself does that.) -/
theorem C79_partial (ops : List Op) (a : Spec.Event.Sp) (s : St) (p : Program ops a s) (op : Op) (s' : St) (e : Event.step s op = some s') :
    ∃ out, s'.out = s.out ++ out ∧ ∀ c, Out.dropped c ∈ out → ∃ o k, ends op o k = true ∧ callback s o k = some c := by
  obtain ⟨_, o, h1, h2⟩ := step_cb (run_Zb Zb_init ops p.2) op e
  exact ⟨o, h1, fun c hc => h2 _ hc⟩

example : ends (.clear 3 .timed) 3 .timed = true ∧ ends (.swap 3 4 .timed) 3 .timed = false ∧ ends (.assign 3 4 .timed) 4 .timed = false := by decide

end Salticidae
