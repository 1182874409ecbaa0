import Verif.Lemmas.Event
/-!
The memory holds the values of the specification.
-/
namespace Salticidae
namespace Event
open Spec.Event (seen Val Sp)

/-- Handle h calls the object at p. -/
structure HOk (s : St) (h : Nat) (p : Loc) (f : Then) (on once : Bool) : Prop where
  data : (s.hd h).data = some ⟨p, .self⟩
  active : (s.hd h).active = on
  thn : on = true → (s.hd h).thn = f ∧ (s.hd h).once = once

/-- A single event holds v. -/
def EvOk (s : St) (p : Loc) (e : Ev) (c : Cls) : Option Val → Prop
  | none => e.ev = none
  | some v => v.t = none ∧ e.ev = some v.h ∧ e.ec = some v.loop ∧ e.cb = v.cb ∧ (c = .fd → e.fd = some v.fd) ∧ HOk s v.h p .plain v.on v.once

/-- A TimedFdEvent holds v. -/
def TmOk (s : St) (p : Loc) (f t : Ev) (x : Tm) : Option Val → Prop
  | none => f.ev = none ∧ t.ev = none
  | some v => ∃ ht, v.t = some ht ∧ f.ev = some v.h ∧ t.ev = some ht ∧ f.ec = some v.loop ∧ t.ec = some v.loop ∧ x.cb = v.cb ∧ f.fd = some v.fd ∧ ((v.on = true ∨ v.ton = true) → x.timeout = some v.ms) ∧
    HOk s v.h p .timedFd v.on false ∧ HOk s ht p .timedTimer v.ton true

/-- The variable at p. -/
def RVar (s : St) (p : Loc) : Option (Kind × Option Val) → Prop
  | none => (∀ a, s.ev ⟨p, a⟩ = none) ∧ s.tm p = none
  | some (.one c, v) => s.ev ⟨p, .fd⟩ = none ∧ s.ev ⟨p, .timer⟩ = none ∧ s.tm p = none ∧ ∃ e, s.ev ⟨p, .self⟩ = some e ∧ e.cls = c ∧ EvOk s p e c v
  | some (.timed, v) => s.ev ⟨p, .self⟩ = none ∧ ∃ f t x, s.ev ⟨p, .fd⟩ = some f ∧ s.ev ⟨p, .timer⟩ = some t ∧ s.tm p = some x ∧ f.cls = .fd ∧ t.cls = .timer ∧ TmOk s p f t x v

/-- The handles of the objects at p. -/
def Held (s : St) (p : Loc) (h : Nat) : Prop := ∃ a e, s.ev ⟨p, a⟩ = some e ∧ e.ev = some h

theorem HOk.congr {s s' : St} {h : Nat} {p : Loc} {f : Then} {on once : Bool} (k : HOk s h p f on once) (e : s'.hd h = s.hd h) : HOk s' h p f on once :=
  ⟨by rw [e]; exact k.data, by rw [e]; exact k.active, by rw [e]; exact k.thn⟩

/-- A variable stays as it is when its objects and handles do. -/
theorem RVar.frame {s s' : St} {p : Loc} {x : Option (Kind × Option Val)} (k : RVar s p x) (h1 : ∀ a, s'.ev ⟨p, a⟩ = s.ev ⟨p, a⟩) (h2 : s'.tm p = s.tm p)
    (h3 : ∀ h, Held s p h → s'.hd h = s.hd h) : RVar s' p x := by
  match x with
  | none => exact ⟨fun a => (h1 a).trans (k.1 a), h2.trans k.2⟩
  | some (.one c, none) =>
    obtain ⟨a, b, c', e, d1, d2, d3⟩ := k
    exact ⟨by rw [h1, a], by rw [h1, b], by rw [h2, c'], e, by rw [h1, d1], d2, d3⟩
  | some (.one c, some v) =>
    obtain ⟨a, b, c', e, d1, d2, i1, i2, i3, i4, i5, i6⟩ := k
    exact ⟨by rw [h1, a], by rw [h1, b], by rw [h2, c'], e, by rw [h1, d1], d2, i1, i2, i3, i4, i5, i6.congr (h3 _ ⟨_, e, d1, i2⟩)⟩
  | some (.timed, none) =>
    obtain ⟨a, f, t, x, i1, i2, i3, i4, i5, i6⟩ := k
    exact ⟨by rw [h1, a], f, t, x, by rw [h1, i1], by rw [h1, i2], by rw [h2, i3], i4, i5, i6⟩
  | some (.timed, some v) =>
    obtain ⟨a, f, t, x, i1, i2, i3, i4, i5, ht, j1, j2, j3, j4, j5, j6, j7, j8, j9, j10⟩ := k
    exact ⟨by rw [h1, a], f, t, x, by rw [h1, i1], by rw [h1, i2], by rw [h2, i3], i4, i5, ht, j1, j2, j3, j4, j5, j6, j7, j8, j9.congr (h3 _ ⟨_, f, i1, j2⟩), j10.congr (h3 _ ⟨_, t, i2, j3⟩)⟩

/-- An operation on the objects at some places leaves the variables at others alone. -/
theorem frame_of {s s' : St} (k : Low s) {D : Nat → Prop} {cl : List Nat} (h : Eff s s' D cl) {p : Loc} (he : ∀ a, s'.ev ⟨p, a⟩ = s.ev ⟨p, a⟩) (ht : s'.tm p = s.tm p)
    (hD : ∀ h, D h ∨ h ∈ cl → ∃ q, q ≠ p ∧ Held s q h) {x : Option (Kind × Option Val)} (r : RVar s p x) : RVar s' p x := by
  refine r.frame he ht (fun y hy => ?_)
  obtain ⟨a, e, h1, h2⟩ := hy
  have hn : ¬ (D y ∨ y ∈ cl) := fun hx => by
    obtain ⟨q, hq, b, f, h3, h4⟩ := hD y hx
    have := k.inj _ _ _ _ y h1 h3 h2 h4
    exact hq (by cases this; rfl)
  exact (h.hd y (k.own _ _ _ h1 h2).1 (fun hx => hn (.inr hx))).2 (fun hx => hn (.inl hx))

theorem HOk.move {s s' : St} {h : Nat} {p q : Loc} {f : Then} {on once : Bool} (k : HOk s h p f on once) (e : s'.hd h = { s.hd h with data := (s'.hd h).data })
    (hd : (s'.hd h).data = some ⟨q, .self⟩) : HOk s' h q f on once := ⟨hd, by rw [e]; exact k.active, by rw [e]; exact k.thn⟩

/-- What is left of an operation: the other variables, and what has been seen. -/
structure Post (s s' : St) (P : Loc → Prop) (o : List Out) : Prop where
  low : Low s'
  frame : ∀ p, ¬ P p → ∀ x, RVar s p x → RVar s' p x
  ext : s'.ext = s.ext
  running : s'.running = s.running
  nextH : s'.nextH = s.nextH
  nextL : s'.nextL = s.nextL
  out : seen s'.out = seen s.out ++ o

theorem Post.trans {s s' s'' : St} {P Q : Loc → Prop} {o o' : List Out} (k : Post s s' P o) (k' : Post s' s'' Q o') : Post s s'' (fun p => P p ∨ Q p) (o ++ o') where
  low := k'.low
  frame p h x r := k'.frame p (fun h1 => h (.inr h1)) x (k.frame p (fun h1 => h (.inl h1)) x r)
  ext := k'.ext.trans k.ext
  running := k'.running.trans k.running
  nextH := k'.nextH.trans k.nextH
  nextL := k'.nextL.trans k.nextL
  out := by rw [k'.out, k.out]; simp

theorem post_of {s s' : St} {P : Loc → Prop} {D : Nat → Prop} {cl : List Nat} (k : Low s) (k' : Low s') (h : Eff s s' D cl)
    (he : ∀ p, ¬ P p → (∀ a, s'.ev ⟨p, a⟩ = s.ev ⟨p, a⟩) ∧ s'.tm p = s.tm p) (hD : ∀ h, D h ∨ h ∈ cl → ∃ q, P q ∧ Held s q h) : Post s s' P (cl.map .closed) where
  low := k'
  frame p hp x r := frame_of k h (he p hp).1 (he p hp).2 (fun y hy => by
    obtain ⟨q, h1, h2⟩ := hD y hy
    exact ⟨q, fun e => hp (e ▸ h1), h2⟩) r
  ext := h.ext
  running := h.running
  nextH := h.nextH
  nextL := h.nextL
  out := h.out

theorem upd2_ne {s : St} {p q r : Loc} {a b : Part} {x y : Option Ev} (h : ¬ (r = p ∨ r = q)) (c : Part) : upd (upd s.ev ⟨p, a⟩ x) ⟨q, b⟩ y ⟨r, c⟩ = s.ev ⟨r, c⟩ := by
  rw [upd_ne _ _ (fun e => h (.inr (by cases e; rfl))), upd_ne _ _ (fun e => h (.inl (by cases e; rfl)))]

theorem upd1_ne {s : St} {p r : Loc} {a : Part} {x : Option Ev} (h : ¬ (r = p)) (c : Part) : upd s.ev ⟨p, a⟩ x ⟨r, c⟩ = s.ev ⟨r, c⟩ :=
  upd_ne _ _ (fun e => h (by cases e; rfl))

theorem EvOk.move {s s' : St} {D : Nat → Prop} {cl : List Nat} (kl : Low s) {r : Ptr} {p q : Loc} {e : Ev} {c : Cls} {v : Option Val} (k : EvOk s p e c v) (hr : s.ev r = some e)
    (h : Eff s s' D cl) (hcl : ∀ h, e.ev = some h → h ∉ cl) (hd : ∀ h, e.ev = some h → (s'.hd h).data = some ⟨q, .self⟩) : EvOk s' q e c v := by
  cases v with
  | none => exact k
  | some v =>
    obtain ⟨i1, i2, i3, i4, i5, i6⟩ := k
    exact ⟨i1, i2, i3, i4, i5, i6.move (h.hd _ (kl.own _ _ _ hr i2).1 (hcl _ i2)).1 (hd _ i2)⟩

theorem one_move {s : St} (k : Low s) {d q : Loc} {c : Cls} {v : Option Val} (hq : RVar s q (some (.one c, v))) (hd : RVar s d none) :
    ∃ s', evMove s ⟨d, .self⟩ ⟨q, .self⟩ = some s' ∧ Post s s' (fun p => p = d ∨ p = q) [] ∧ RVar s' d (some (.one c, v)) ∧ RVar s' q (some (.one c, none)) := by
  obtain ⟨a1, a2, a3, e, a4, a5, a6⟩ := hq
  have hne : d ≠ q := fun h => by rw [h] at hd; rw [hd.1 .self] at a4; cases a4
  obtain ⟨s', h1, h2, h3, h4, h5, h6⟩ := evMove_ok k a4 (hd.1 .self)
  refine ⟨s', h1, post_of k h2 h5 (fun p hp => ⟨fun a => by rw [h3, upd2_ne hp], by rw [h4]⟩) (fun h hh => ⟨q, .inr rfl, .self, e, a4, by simpa using hh⟩), ?_, ?_⟩
  · refine ⟨?_, ?_, by rw [h4, hd.2], e, ?_, a5, a6.move k a4 h5 (by simp) h6⟩
    · rw [h3, upd_ne _ _ (by simp), upd_ne _ _ (by simp), hd.1]
    · rw [h3, upd_ne _ _ (by simp), upd_ne _ _ (by simp), hd.1]
    · rw [h3, upd_ne _ _ (by simp [hne]), upd_self]
  · refine ⟨?_, ?_, by rw [h4, a3], e.gone, ?_, a5, rfl⟩
    · rw [h3, upd_ne _ _ (by simp), upd_ne _ _ (by simp), a1]
    · rw [h3, upd_ne _ _ (by simp), upd_ne _ _ (by simp), a2]
    · rw [h3, upd_self]

theorem one_swap {s : St} (k : Low s) {p q : Loc} {c : Cls} {v w : Option Val} (hp : RVar s p (some (.one c, v))) (hq : RVar s q (some (.one c, w))) (hne : p ≠ q) :
    ∃ s', evSwap s ⟨p, .self⟩ ⟨q, .self⟩ = some s' ∧ Post s s' (fun r => r = p ∨ r = q) [] ∧ RVar s' p (some (.one c, w)) ∧ RVar s' q (some (.one c, v)) := by
  obtain ⟨a1, a2, a3, e, a4, a5, a6⟩ := hp
  obtain ⟨b1, b2, b3, f, b4, b5, b6⟩ := hq
  obtain ⟨s', h1, h2, h3, h4, h5, h6, h7⟩ := evSwap_ok k a4 b4 (by simp [hne])
  refine ⟨s', h1, post_of k h2 h5 (fun r hr => ⟨fun a => by rw [h3, upd2_ne hr], by rw [h4]⟩) (fun h hh => ?_), ?_, ?_⟩
  · rcases hh with (hh | hh) | hh
    · exact ⟨p, .inl rfl, .self, e, a4, hh⟩
    · exact ⟨q, .inr rfl, .self, f, b4, hh⟩
    · cases hh
  · refine ⟨?_, ?_, by rw [h4, a3], f, ?_, b5, b6.move k b4 h5 (by simp) h6⟩
    · rw [h3, upd_ne _ _ (by simp), upd_ne _ _ (by simp), a1]
    · rw [h3, upd_ne _ _ (by simp), upd_ne _ _ (by simp), a2]
    · rw [h3, upd_ne _ _ (by simp [hne]), upd_self]
  · refine ⟨?_, ?_, by rw [h4, b3], e, ?_, a5, a6.move k a4 h5 (by simp) h7⟩
    · rw [h3, upd_ne _ _ (by simp), upd_ne _ _ (by simp), b1]
    · rw [h3, upd_ne _ _ (by simp), upd_ne _ _ (by simp), b2]
    · rw [h3, upd_self]

theorem EvOk.closing {s : St} {p : Loc} {e : Ev} {c : Cls} {v : Option Val} (k : EvOk s p e c v) : e.ev.toList.map Out.closed = Spec.Event.closing v := by
  cases v with
  | none => rw [show e.ev = none from k]; rfl
  | some v => obtain ⟨i1, i2, _⟩ := k; simp [i2, Spec.Event.closing, i1]

theorem one_assign {s : St} (k : Low s) {p q : Loc} {c : Cls} {v w : Option Val} {t : Loc} (ht : RVar s t none) (hp : RVar s p (some (.one c, v))) (hq : RVar s q (some (.one c, w))) (hne : p ≠ q) :
    ∃ s', evAssign ⟨t, .self⟩ s ⟨p, .self⟩ ⟨q, .self⟩ = some s' ∧ Post s s' (fun r => r = p ∨ r = q) (Spec.Event.closing v) ∧ RVar s' p (some (.one c, w)) ∧ RVar s' q (some (.one c, none)) := by
  obtain ⟨a1, a2, a3, e, a4, a5, a6⟩ := hp
  obtain ⟨b1, b2, b3, f, b4, b5, b6⟩ := hq
  obtain ⟨s', h1, h2, h3, h4, h5, h6⟩ := evAssign_ok k (ht.1 .self) a4 b4 (by simp [hne])
  refine ⟨s', h1, ?_, ?_, ?_⟩
  · rw [← a6.closing]
    refine post_of k h2 h5 (fun r hr => ⟨fun a => by rw [h3, upd2_ne hr], by rw [h4]⟩) (fun h hh => ?_)
    rcases hh with hh | hh
    · exact ⟨q, .inr rfl, .self, f, b4, hh⟩
    · exact ⟨p, .inl rfl, .self, e, a4, by simpa using hh⟩
  · refine ⟨?_, ?_, by rw [h4, a3], f, ?_, b5, b6.move k b4 h5 (fun h hf he => ?_) h6⟩
    · rw [h3, upd_ne _ _ (by simp), upd_ne _ _ (by simp), a1]
    · rw [h3, upd_ne _ _ (by simp), upd_ne _ _ (by simp), a2]
    · rw [h3, upd_ne _ _ (by simp [hne]), upd_self]
    · have := k.inj _ _ _ _ h a4 b4 (by simpa using he) hf
      simp [hne] at this
  · refine ⟨?_, ?_, by rw [h4, b3], f.gone, ?_, b5, rfl⟩
    · rw [h3, upd_ne _ _ (by simp), upd_ne _ _ (by simp), b1]
    · rw [h3, upd_ne _ _ (by simp), upd_ne _ _ (by simp), b2]
    · rw [h3, upd_self]

theorem one_clear {s : St} (k : Low s) {p : Loc} {c : Cls} {v : Option Val} (hp : RVar s p (some (.one c, v))) :
    ∃ s', evClear s ⟨p, .self⟩ = some s' ∧ Post s s' (fun r => r = p) (Spec.Event.closing v) ∧ RVar s' p (some (.one c, none)) := by
  obtain ⟨a1, a2, a3, e, a4, a5, a6⟩ := hp
  obtain ⟨s', h1, h2, h3, h4, h5⟩ := evClear_ok k a4
  refine ⟨s', h1, ?_, ?_⟩
  · rw [← a6.closing]
    refine post_of k h2 h5 (fun r hr => ⟨fun a => by rw [h3, upd1_ne hr], by rw [h4]⟩) (fun h hh => ?_)
    rcases hh with hh | hh
    · cases hh
    · exact ⟨p, rfl, .self, e, a4, by simpa using hh⟩
  · refine ⟨?_, ?_, by rw [h4, a3], { e with ev := none, cb := none }, by rw [h3, upd_self], a5, rfl⟩
    · rw [h3, upd_ne _ _ (by simp), a1]
    · rw [h3, upd_ne _ _ (by simp), a2]

theorem one_dtor {s : St} (k : Low s) {p : Loc} {c : Cls} {v : Option Val} (hp : RVar s p (some (.one c, v))) :
    ∃ s', evDtor s ⟨p, .self⟩ = some s' ∧ Post s s' (fun r => r = p) (Spec.Event.closing v) ∧ RVar s' p none := by
  obtain ⟨a1, a2, a3, e, a4, a5, a6⟩ := hp
  obtain ⟨s', h1, h2, h3, h4, h5⟩ := evDtor_ok k a4
  refine ⟨s', h1, ?_, ?_⟩
  · rw [← a6.closing]
    refine post_of k h2 h5 (fun r hr => ⟨fun a => by rw [h3, upd1_ne hr], by rw [h4]⟩) (fun h hh => ?_)
    rcases hh with hh | hh
    · cases hh
    · exact ⟨p, rfl, .self, e, a4, by simpa using hh⟩
  · refine ⟨fun a => ?_, by rw [h4, a3]⟩
    rw [h3, upd_apply]
    split
    · rfl
    · cases a with
      | self => exact absurd rfl ‹_›
      | fd => exact a1
      | timer => exact a2

/-! # TimedFdEvent -/

theorem tData_ok {s : St} (k : Low s) {p : Loc} {f t : Ev} (hf : s.ev ⟨p, .fd⟩ = some f) (ht : s.ev ⟨p, .timer⟩ = some t) (hb : f.ev.isSome = t.ev.isSome) :
    ∃ s', tData s p = some s' ∧ Low s' ∧ s'.ev = s.ev ∧ s'.tm = s.tm ∧ Eff s s' (fun h => f.ev = some h ∨ t.ev = some h) [] ∧
      ∀ h, f.ev = some h ∨ t.ev = some h → (s'.hd h).data = some ⟨p, .self⟩ := by
  simp only [tData, hf, ht]
  cases h1 : f.ev with
  | none =>
    cases h2 : t.ev with
    | none => exact ⟨s, rfl, k, rfl, rfl, Eff.refl _ _, fun h hh => by simp at hh⟩
    | some y => rw [h1, h2] at hb; cases hb
  | some x =>
    cases h2 : t.ev with
    | none => rw [h1, h2] at hb; cases hb
    | some y =>
      have hxy : x ≠ y := fun e => by
        have := k.inj _ _ _ _ x hf ht h1 (by rw [h2, e]); simp at this
      obtain ⟨s1, a1, a2, a3, a4, a5, a6, _⟩ := setData_ok k (h := y) ⟨p, .self⟩ (k.st_ne ht h2)
      obtain ⟨s2, b1, b2, b3, b4, b5, b6, _, b7⟩ := setData_ok a2 (h := x) ⟨p, .self⟩ (a2.st_ne (p := ⟨p, .fd⟩) (e := f) (by rw [a3, hf]) h1)
      refine ⟨s2, by simp only [a1, Option.bind_some, b1], b2, by rw [b3, a3], by rw [b4, a4], (a5.trans b5).mono (fun h hh => by rcases hh with rfl | rfl <;> simp), fun h hh => ?_⟩
      rcases hh with hh | hh
      · cases hh; exact b6
      · cases hh; rw [b7 _ hxy.symm]; exact a6

theorem TmOk.both {s : St} {p : Loc} {f t : Ev} {x : Tm} {v : Option Val} (k : TmOk s p f t x v) : f.ev.isSome = t.ev.isSome := by
  cases v with
  | none => rw [k.1, k.2]
  | some v => obtain ⟨ht, _, h1, h2, _⟩ := k; rw [h1, h2]; rfl

theorem TmOk.move {s s' : St} {D : Nat → Prop} {cl : List Nat} (kl : Low s) {r r' : Ptr} {p q : Loc} {f t : Ev} {x : Tm} {v : Option Val} (k : TmOk s p f t x v) (hr : s.ev r = some f) (hr' : s.ev r' = some t)
    (h : Eff s s' D cl) (hcl : ∀ h, f.ev = some h ∨ t.ev = some h → h ∉ cl) (hd : ∀ h, f.ev = some h ∨ t.ev = some h → (s'.hd h).data = some ⟨q, .self⟩) : TmOk s' q f t x v := by
  cases v with
  | none => exact k
  | some v =>
    obtain ⟨ht, i1, i2, i3, i4, i5, i6, i7, i8, i9, i10⟩ := k
    exact ⟨ht, i1, i2, i3, i4, i5, i6, i7, i8, i9.move (h.hd _ (kl.own _ _ _ hr i2).1 (hcl _ (.inl i2))).1 (hd _ (.inl i2)),
      i10.move (h.hd _ (kl.own _ _ _ hr' i3).1 (hcl _ (.inr i3))).1 (hd _ (.inr i3))⟩

/-- `tm` and what cannot be seen change. -/
theorem Low.tm {s : St} (k : Low s) (tm : Loc → Option Tm) (o : List Out) : Low { s with tm := tm, out := o } := k.data (fun _ => ⟨rfl, rfl⟩) rfl rfl rfl rfl rfl rfl rfl
theorem Eff.tm (s : St) (tm : Loc → Option Tm) (o : List Out) (h : seen o = []) : Eff s { s with tm := tm, out := s.out ++ o } (fun _ => False) [] :=
  ⟨fun _ _ _ => ⟨rfl, fun _ => rfl⟩, rfl, rfl, rfl, rfl, by simp [h]⟩

theorem timed_move {s : St} (k : Low s) {d q : Loc} {v : Option Val} (hq : RVar s q (some (.timed, v))) (hd : RVar s d none) :
    ∃ s', tMove s d q = some s' ∧ Post s s' (fun p => p = d ∨ p = q) [] ∧ RVar s' d (some (.timed, v)) ∧ RVar s' q (some (.timed, none)) := by
  obtain ⟨a1, f, t, x, a2, a3, a4, a5, a6, a7⟩ := hq
  have hne : d ≠ q := fun h => by rw [h] at hd; rw [hd.1 .fd] at a2; cases a2
  obtain ⟨s1, h1, h2, h3, h4, h5, _⟩ := evMove_ok k a2 (hd.1 .fd)
  have e1 : s1.ev ⟨q, .timer⟩ = some t := by rw [h3, upd_ne _ _ (by simp), upd_ne _ _ (by simp), a3]
  have e2 : s1.ev ⟨d, .timer⟩ = none := by rw [h3, upd_ne _ _ (by simp), upd_ne _ _ (by simp), hd.1]
  obtain ⟨s2, g1, g2, g3, g4, g5, _⟩ := evMove_ok h2 e1 e2
  have e3 : s2.tm q = some x := by rw [g4, h4, a4]
  have e4 : s2.ev ⟨d, .fd⟩ = some f := by rw [g3, upd_ne _ _ (by simp), upd_ne _ _ (by simp), h3, upd_ne _ _ (by simp [hne]), upd_self]
  have e5 : s2.ev ⟨d, .timer⟩ = some t := by rw [g3, upd_ne _ _ (by simp [hne]), upd_self]
  let s3 : St := { s2 with tm := upd (upd s2.tm d (some x)) q (some { x with cb := none }), out := s2.out ++ indetIf (x.timeout = none) }
  obtain ⟨s4, i1, i2, i3, i4, i5, i6⟩ := tData_ok (s := s3) (g2.tm _ _) (p := d) (f := f) (t := t) e4 e5 a7.both
  have eff : Eff s s4 (fun h => f.ev = some h ∨ t.ev = some h) [] := by
    have := ((h5.trans g5).trans (Eff.tm s2 (upd (upd s2.tm d (some x)) q (some { x with cb := none })) (indetIf (x.timeout = none)) (by simp))).trans i5
    exact this.mono (fun y hy => by grind)
  have hev : s4.ev = upd (upd (upd (upd s.ev ⟨d, .fd⟩ (some f)) ⟨q, .fd⟩ (some f.gone)) ⟨d, .timer⟩ (some t)) ⟨q, .timer⟩ (some t.gone) := by rw [i3]; show s2.ev = _; rw [g3, h3]
  have htm : s4.tm = upd (upd s.tm d (some x)) q (some { x with cb := none }) := by rw [i4]; show upd (upd s2.tm _ _) _ _ = _; rw [g4, h4]
  refine ⟨s4, ?_, post_of k i2 eff (fun r hr => ⟨fun a => ?_, ?_⟩) (fun h hh => ?_), ?_, ?_⟩
  · simp only [tMove, h1, Option.bind_some, g1, e3]; exact i1
  · have hr' := not_or.mp hr
    rw [hev, upd_ne _ _ (by simp [hr'.2]), upd_ne _ _ (by simp [hr'.1]), upd_ne _ _ (by simp [hr'.2]), upd_ne _ _ (by simp [hr'.1])]
  · have hr' := not_or.mp hr
    rw [htm, upd_ne _ _ hr'.2, upd_ne _ _ hr'.1]
  · rcases hh with (hh | hh) | hh
    · exact ⟨q, .inr rfl, .fd, f, a2, hh⟩
    · exact ⟨q, .inr rfl, .timer, t, a3, hh⟩
    · cases hh
  · refine ⟨?_, f, t, x, ?_, ?_, ?_, a5, a6, a7.move k a2 a3 eff (by simp) i6⟩
    · rw [hev, upd_ne _ _ (by simp), upd_ne _ _ (by simp), upd_ne _ _ (by simp), upd_ne _ _ (by simp), hd.1]
    · rw [i3]; exact e4
    · rw [i3]; exact e5
    · rw [htm, upd_ne _ _ hne, upd_self]
  · refine ⟨?_, f.gone, t.gone, { x with cb := none }, ?_, ?_, ?_, a5, a6, rfl, rfl⟩
    · rw [hev, upd_ne _ _ (by simp), upd_ne _ _ (by simp), upd_ne _ _ (by simp), upd_ne _ _ (by simp), a1]
    · rw [hev, upd_ne _ _ (by simp), upd_ne _ _ (by simp), upd_self]
    · rw [hev, upd_self]
    · rw [htm, upd_self]

theorem timed_swap {s : St} (k : Low s) (t1 : RVar s (.tmp 1) none) (t2 : RVar s (.tmp 2) none) {p q : Loc} {v w : Option Val} (hp : RVar s p (some (.timed, v))) (hq : RVar s q (some (.timed, w))) (hne : p ≠ q) :
    ∃ s', tSwap s p q = some s' ∧ Post s s' (fun r => r = p ∨ r = q) [] ∧ RVar s' p (some (.timed, w)) ∧ RVar s' q (some (.timed, v)) := by
  obtain ⟨a1, f, t, x, a2, a3, a4, a5, a6, a7⟩ := hp
  obtain ⟨b1, g, u, y, b2, b3, b4, b5, b6, b7⟩ := hq
  have np1 : p ≠ .tmp 1 := fun h => by rw [h, t1.1] at a2; cases a2
  have np2 : p ≠ .tmp 2 := fun h => by rw [h, t2.1] at a2; cases a2
  have nq1 : q ≠ .tmp 1 := fun h => by rw [h, t1.1] at b2; cases b2
  have nq2 : q ≠ .tmp 2 := fun h => by rw [h, t2.1] at b2; cases b2
  obtain ⟨s1, h1, h2, h3, h4, h5⟩ := stdSwap_ok k (t := ⟨.tmp 1, .self⟩) (t' := ⟨.tmp 2, .self⟩) (t1.1 _) (t2.1 _) (by simp) a2 b2 (by simp [hne])
  have e0 : ∀ r a, a ≠ .fd → s1.ev ⟨r, a⟩ = s.ev ⟨r, a⟩ := fun r a ha => by rw [h3, upd_ne _ _ (by simp [ha]), upd_ne _ _ (by simp [ha])]
  obtain ⟨s2, i1, i2, i3, i4, i5⟩ := stdSwap_ok h2 (t := ⟨.tmp 1, .self⟩) (t' := ⟨.tmp 2, .self⟩) (p := ⟨p, .timer⟩) (q := ⟨q, .timer⟩) (a := t) (b := u)
    (by rw [e0 _ _ (by simp), t1.1]) (by rw [e0 _ _ (by simp), t2.1]) (by simp) (by rw [e0 _ _ (by simp), a3]) (by rw [e0 _ _ (by simp), b3]) (by simp [hne])
  have hev : s2.ev = upd (upd (upd (upd s.ev ⟨p, .fd⟩ (some g)) ⟨q, .fd⟩ (some f)) ⟨p, .timer⟩ (some u)) ⟨q, .timer⟩ (some t) := by rw [i3, h3]
  have c1 : s2.ev ⟨p, .fd⟩ = some g := by rw [hev, upd_ne _ _ (by simp), upd_ne _ _ (by simp), upd_ne _ _ (by simp [hne]), upd_self]
  have c2 : s2.ev ⟨p, .timer⟩ = some u := by rw [hev, upd_ne _ _ (by simp [hne]), upd_self]
  have c3 : s2.ev ⟨q, .fd⟩ = some f := by rw [hev, upd_ne _ _ (by simp), upd_ne _ _ (by simp), upd_self]
  have c4 : s2.ev ⟨q, .timer⟩ = some t := by rw [hev, upd_self]
  have e1 : s2.tm p = some x := by rw [i4, h4, a4]
  have e2 : s2.tm q = some y := by rw [i4, h4, b4]
  let s3 : St := { s2 with tm := upd (upd s2.tm p (some y)) q (some x), out := s2.out ++ indetIf (x.timeout = none ∨ y.timeout = none) }
  obtain ⟨s4, j1, j2, j3, j4, j5, j6⟩ := tData_ok (s := s3) (i2.tm _ _) (p := p) (f := g) (t := u) c1 c2 b7.both
  obtain ⟨s5, l1, l2, l3, l4, l5, l6⟩ := tData_ok j2 (p := q) (f := f) (t := t) (by rw [j3]; exact c3) (by rw [j3]; exact c4) a7.both
  have effA : Eff s s4 (fun h => f.ev = some h ∨ t.ev = some h ∨ g.ev = some h ∨ u.ev = some h) [] := by
    have := ((h5.trans i5).trans (Eff.tm s2 (upd (upd s2.tm p (some y)) q (some x)) (indetIf (x.timeout = none ∨ y.timeout = none)) (by simp))).trans j5
    exact this.mono (fun y hy => by grind)
  have eff : Eff s s5 (fun h => f.ev = some h ∨ t.ev = some h ∨ g.ev = some h ∨ u.ev = some h) [] :=
    (effA.trans l5).mono (fun y hy => by grind)
  have hev5 : s5.ev = s2.ev := by rw [l3, j3]
  have htm : s5.tm = upd (upd s.tm p (some y)) q (some x) := by rw [l4, j4]; show upd (upd s2.tm _ _) _ _ = _; rw [i4, h4]
  have dis : ∀ h, (g.ev = some h ∨ u.ev = some h) → ¬ (f.ev = some h ∨ t.ev = some h) := by
    intro h h1 h2
    have : ∀ a b e e', s.ev ⟨p, a⟩ = some e → s.ev ⟨q, b⟩ = some e' → e.ev = some h → e'.ev = some h → False := fun a b e e' h1 h2 h3 h4 => by
      have := k.inj _ _ _ _ h h1 h2 h3 h4
      simp [hne] at this
    rcases h1 with h1 | h1 <;> rcases h2 with h2 | h2
    · exact this _ _ _ _ a2 b2 h2 h1
    · exact this _ _ _ _ a3 b2 h2 h1
    · exact this _ _ _ _ a2 b3 h2 h1
    · exact this _ _ _ _ a3 b3 h2 h1
  have dp : ∀ h, (g.ev = some h ∨ u.ev = some h) → (s5.hd h).data = some ⟨p, .self⟩ := fun h hh => by
    have ho : (s.hd h).st = .opened := by
      rcases hh with hh | hh
      · exact (k.own _ _ _ b2 hh).1
      · exact (k.own _ _ _ b3 hh).1
    rw [(l5.hd h (effA.st ho (by simp)) (by simp)).2 (dis h hh)]
    exact j6 h hh
  refine ⟨s5, ?_, post_of k l2 eff (fun r hr => ⟨fun a => ?_, ?_⟩) (fun h hh => ?_), ?_, ?_⟩
  · simp only [tSwap, h1, Option.bind_some, i1, e1, e2]
    exact (congrArg (fun z => Option.bind z (fun s => tData s q)) j1).trans l1
  · have hr' := not_or.mp hr
    rw [hev5, hev, upd_ne _ _ (by simp [hr'.2]), upd_ne _ _ (by simp [hr'.1]), upd_ne _ _ (by simp [hr'.2]), upd_ne _ _ (by simp [hr'.1])]
  · have hr' := not_or.mp hr
    rw [htm, upd_ne _ _ hr'.2, upd_ne _ _ hr'.1]
  · rcases hh with (hh | hh | hh | hh) | hh
    · exact ⟨p, .inl rfl, .fd, f, a2, hh⟩
    · exact ⟨p, .inl rfl, .timer, t, a3, hh⟩
    · exact ⟨q, .inr rfl, .fd, g, b2, hh⟩
    · exact ⟨q, .inr rfl, .timer, u, b3, hh⟩
    · cases hh
  · refine ⟨?_, g, u, y, by rw [hev5, c1], by rw [hev5, c2], by rw [htm, upd_ne _ _ hne, upd_self], b5, b6, b7.move k b2 b3 eff (by simp) dp⟩
    rw [hev5, hev, upd_ne _ _ (by simp), upd_ne _ _ (by simp), upd_ne _ _ (by simp), upd_ne _ _ (by simp), a1]
  · refine ⟨?_, f, t, x, by rw [hev5, c3], by rw [hev5, c4], by rw [htm, upd_self], a5, a6, a7.move k a2 a3 eff (by simp) l6⟩
    rw [hev5, hev, upd_ne _ _ (by simp), upd_ne _ _ (by simp), upd_ne _ _ (by simp), upd_ne _ _ (by simp), b1]

theorem TmOk.closing {s : St} {p : Loc} {f t : Ev} {x : Tm} {v : Option Val} (k : TmOk s p f t x v) : (t.ev.toList ++ f.ev.toList).map Out.closed = Spec.Event.closing v := by
  cases v with
  | none => rw [k.1, k.2]; rfl
  | some v => obtain ⟨ht, i1, i2, i3, _⟩ := k; simp [i2, i3, Spec.Event.closing, i1]

theorem timed_clear {s : St} (k : Low s) {p : Loc} {v : Option Val} (hp : RVar s p (some (.timed, v))) :
    ∃ s', tClear s p = some s' ∧ Post s s' (fun r => r = p) (Spec.Event.closing v) ∧ RVar s' p (some (.timed, none)) := by
  obtain ⟨a1, f, t, x, a2, a3, a4, a5, a6, a7⟩ := hp
  obtain ⟨s1, h1, h2, h3, h4, h5⟩ := evClear_ok k a3
  obtain ⟨s2, g1, g2, g3, g4, g5⟩ := evClear_ok h2 (p := ⟨p, .fd⟩) (e := f) (by rw [h3, upd_ne _ _ (by simp), a2])
  have e1 : s2.tm p = some x := by rw [g4, h4, a4]
  let s3 : St := { s2 with tm := upd s2.tm p (some { x with cb := none }), out := s2.out ++ dropped x.cb }
  have eff : Eff s s3 (fun _ => False) (t.ev.toList ++ f.ev.toList) := by
    have := (h5.trans g5).trans (Eff.tm s2 (upd s2.tm p (some { x with cb := none })) (dropped x.cb) (by simp))
    rw [List.append_nil] at this
    exact this.mono (fun y hy => by grind)
  have hev : s3.ev = upd (upd s.ev ⟨p, .timer⟩ (some { t with ev := none, cb := none })) ⟨p, .fd⟩ (some { f with ev := none, cb := none }) := by show s2.ev = _; rw [g3, h3]
  have htm : s3.tm = upd s.tm p (some { x with cb := none }) := by show upd s2.tm _ _ = _; rw [g4, h4]
  refine ⟨s3, ?_, ?_, ?_⟩
  · simp only [tClear, h1, Option.bind_some, g1, e1]; rfl
  · rw [← a7.closing]
    refine post_of k (g2.tm _ _) eff (fun r hr => ⟨fun a => ?_, ?_⟩) (fun h hh => ?_)
    · rw [hev, upd_ne _ _ (by simp [hr]), upd_ne _ _ (by simp [hr])]
    · rw [htm, upd_ne _ _ hr]
    · rcases hh with hh | hh
      · cases hh
      · rcases List.mem_append.mp hh with hh | hh
        · exact ⟨p, rfl, .timer, t, a3, by simpa using hh⟩
        · exact ⟨p, rfl, .fd, f, a2, by simpa using hh⟩
  · refine ⟨by rw [hev, upd_ne _ _ (by simp), upd_ne _ _ (by simp), a1], { f with ev := none, cb := none }, { t with ev := none, cb := none }, _, by rw [hev, upd_self],
      by rw [hev, upd_ne _ _ (by simp), upd_self], by rw [htm, upd_self], a5, a6, rfl, rfl⟩

theorem timed_dtor {s : St} (k : Low s) {p : Loc} {v : Option Val} (hp : RVar s p (some (.timed, v))) :
    ∃ s', tDtor s p = some s' ∧ Post s s' (fun r => r = p) (Spec.Event.closing v) ∧ RVar s' p none := by
  obtain ⟨s1, h1, h2, h3⟩ := timed_clear k hp
  obtain ⟨a1, f, t, x, a2, a3, a4, a5, a6, a7, a8⟩ := h3
  let s2 : St := { s1 with tm := upd s1.tm p none }
  have k2 : Low s2 := h2.low.data (fun _ => ⟨rfl, rfl⟩) rfl rfl rfl rfl rfl rfl rfl
  obtain ⟨s3, g1, g2, g3, g4, g5⟩ := evDtor_ok k2 (p := ⟨p, .timer⟩) (e := t) a3
  obtain ⟨s4, i1, i2, i3, i4, i5⟩ := evDtor_ok g2 (p := ⟨p, .fd⟩) (e := f) (by rw [g3, upd_ne _ _ (by simp)]; exact a2)
  have hev : s4.ev = upd (upd s1.ev ⟨p, .timer⟩ none) ⟨p, .fd⟩ none := by rw [i3, g3]
  have htm : s4.tm = upd s1.tm p none := by rw [i4, g4]
  have eff0 : Eff s1 s2 (fun _ => False) [] := ⟨fun _ _ _ => ⟨rfl, fun _ => rfl⟩, rfl, rfl, rfl, rfl, by simp [s2]⟩
  have eff : Eff s1 s4 (fun _ => False) [] := by
    have := (eff0.trans g5).trans i5
    rw [a7, a8] at this
    exact this.mono (fun y hy => by grind)
  refine ⟨s4, ?_, ?_, ?_⟩
  · simp only [tDtor, h1, Option.bind_some]
    exact (congrArg (fun z => Option.bind z (fun s => evDtor s ⟨p, .fd⟩)) g1).trans i1
  · have := h2.trans (post_of (P := fun r => r = p) h2.low i2 eff (fun r hr => ⟨fun a => by rw [hev, upd_ne _ _ (by simp [hr]), upd_ne _ _ (by simp [hr])], by rw [htm, upd_ne _ _ hr]⟩)
      (fun h hh => by simp at hh))
    simpa using this
  · refine ⟨fun a => ?_, by rw [htm, upd_self]⟩
    rw [hev]
    cases a with
    | self => rw [upd_ne _ _ (by simp), upd_ne _ _ (by simp), a1]
    | fd => rw [upd_self]
    | timer => rw [upd_ne _ _ (by simp), upd_self]

theorem Post.mono {s s' : St} {P Q : Loc → Prop} {o : List Out} (k : Post s s' P o) (h : ∀ p, P p → Q p) : Post s s' Q o :=
  { k with frame := fun p hp => k.frame p (fun h1 => hp (h p h1)) }

theorem RVar.none_eq {s : St} {p : Loc} {x : Option (Kind × Option Val)} (r : RVar s p x) (h : RVar s p none) : x = none := by
  match x with
  | none => rfl
  | some (.one c, v) => obtain ⟨_, _, _, e, h1, _⟩ := r; rw [h.1] at h1; cases h1
  | some (.timed, v) => obtain ⟨_, f, _, _, h1, _⟩ := r; rw [h.1] at h1; cases h1

/-- A temporary object that has come and gone. -/
theorem Post.tmp {s s' : St} {P : Loc → Prop} {t : Loc} {o : List Out} (k : Post s s' (fun r => P r ∨ r = t) o) (h : RVar s t none) (h' : RVar s' t none) : Post s s' P o :=
  { k with frame := fun p hp x r => if e : p = t then by subst e; rw [r.none_eq h]; exact h' else k.frame p (fun h1 => h1.elim hp e) x r }

theorem timed_assign {s : St} (k : Low s) (t0 : RVar s (.tmp 0) none) (t1 : RVar s (.tmp 1) none) (t2 : RVar s (.tmp 2) none) {p q : Loc} {v w : Option Val}
    (hp : RVar s p (some (.timed, v))) (hq : RVar s q (some (.timed, w))) (hne : p ≠ q) :
    ∃ s', tAssign s p q = some s' ∧ Post s s' (fun r => r = p ∨ r = q) (Spec.Event.closing v) ∧ RVar s' p (some (.timed, w)) ∧ RVar s' q (some (.timed, none)) := by
  have nl : ∀ (l m : Loc) (v : Option Val), RVar s l (some (.timed, v)) → RVar s m none → l ≠ m := fun l m v h h' e => by
    obtain ⟨_, f, _, _, h1, _⟩ := h; rw [e, h'.1] at h1; cases h1
  obtain ⟨s1, h1, h2, h3, h4⟩ := timed_move k hq t0
  have fr : ∀ r, r ≠ .tmp 0 → r ≠ q → ∀ x, RVar s r x → RVar s1 r x := fun r a b => h2.frame r (fun h => h.elim a b)
  obtain ⟨s2, g1, g2, g3, g4⟩ := timed_swap h2.low (fr _ (by simp) (nl _ _ _ hq t1).symm _ t1) (fr _ (by simp) (nl _ _ _ hq t2).symm _ t2) h3 (fr p (nl _ _ _ hp t0) hne _ hp) (nl _ _ _ hp t0).symm
  obtain ⟨s3, i1, i2, i3⟩ := timed_dtor g2.low g3
  have hq3 := i2.frame q (nl _ _ _ hq t0) _ (g2.frame q (fun h => h.elim (nl _ _ _ hq t0) hne.symm) _ h4)
  have hp3 := i2.frame p (nl _ _ _ hp t0) _ g4
  refine ⟨s3, by simp only [tAssign, if_neg hne, h1, Option.bind_some, g1, i1], ?_, hp3, hq3⟩
  have := (h2.trans g2).trans i2
  exact Post.tmp (this.mono (fun r hr => by grind)) t0 i3

/-! # Swapped with itself -/

theorem one_swap_self {s : St} (k : Low s) {p : Loc} {c : Cls} {v : Option Val} (hp : RVar s p (some (.one c, v))) :
    ∃ s', evSwap s ⟨p, .self⟩ ⟨p, .self⟩ = some s' ∧ Post s s' (fun r => r = p) [] ∧ RVar s' p (some (.one c, v)) := by
  obtain ⟨a1, a2, a3, e, a4, a5, a6⟩ := hp
  simp only [evSwap, a4]
  have hu : upd (upd s.ev ⟨p, .self⟩ (some e)) ⟨p, .self⟩ (some e) = s.ev := by
    funext r; simp only [upd_apply]; split
    · subst_vars; exact a4.symm
    · rfl
  have k1 : Low (St.say ((s.setEv ⟨p, .self⟩ e).setEv ⟨p, .self⟩ e) (indetIf (e.cls = .fd ∧ (e.fd = none ∨ e.fd = none)))) :=
    k.data (fun _ => ⟨rfl, rfl⟩) hu rfl rfl rfl rfl rfl rfl
  have eff0 : Eff s (St.say ((s.setEv ⟨p, .self⟩ e).setEv ⟨p, .self⟩ e) (indetIf (e.cls = .fd ∧ (e.fd = none ∨ e.fd = none)))) (fun _ => False) [] :=
    ⟨fun _ _ _ => ⟨rfl, fun _ => rfl⟩, rfl, rfl, rfl, rfl, by simp [St.say, St.setEv]⟩
  obtain ⟨s1, h1, h2, h3, h4, h5, h6⟩ := setData?_ok k1 (h := e.ev) ⟨p, .self⟩ (fun x hx => k.st_ne a4 hx)
  have h3' : s1.ev = s.ev := h3.trans hu
  obtain ⟨s2, g1, g2, g3, g4, g5, g6⟩ := setData?_ok h2 (h := e.ev) ⟨p, .self⟩ (fun x hx => h2.st_ne (by rw [h3', a4]) hx)
  have eff : Eff s s2 (fun h => e.ev = some h) [] := ((eff0.trans h5).trans g5).mono (fun y hy => by grind)
  have hev : s2.ev = s.ev := g3.trans h3'
  have htm : s2.tm = s.tm := g4.trans h4
  refine ⟨s2, by rw [h1]; exact g1, post_of k g2 eff (fun r hr => ⟨fun a => by rw [hev], by rw [htm]⟩) (fun h hh => ⟨p, rfl, .self, e, a4, by simpa using hh⟩), ?_⟩
  exact ⟨by rw [hev, a1], by rw [hev, a2], by rw [htm, a3], e, by rw [hev, a4], a5, a6.move k a4 eff (by simp) g6⟩

theorem stdSwap_self {s : St} (k : Low s) {t t' p : Ptr} {a : Ev} (ht : s.ev t = none) (ht' : s.ev t' = none) (htt : t ≠ t') (hp : s.ev p = some a) :
    ∃ s', stdSwap t t' s p p = some s' ∧ Low s' ∧ s'.ev = s.ev ∧ s'.tm = s.tm ∧ Eff s s' (fun h => a.ev = some h) [] := by
  have htp : t ≠ p := fun h => by rw [h, hp] at ht; cases ht
  have htp' : t' ≠ p := fun h => by rw [h, hp] at ht'; cases ht'
  obtain ⟨s1, h1, h2, h3, h4, h5, _⟩ := evMove_ok k hp ht
  have e1 : s1.ev p = some a.gone := by rw [h3, upd_self]
  have e2 : s1.ev t = some a := by rw [h3, upd_ne _ _ htp, upd_self]
  have e3 : s1.ev t' = none := by rw [h3, upd_ne _ _ htp', upd_ne _ _ htt.symm, ht']
  obtain ⟨s3, i1, i2, i3, i4, i5, _⟩ := evAssign_ok h2 e3 e1 e2 htp.symm
  obtain ⟨s4, j2, j3, j4, j5, j6⟩ := evDtor_ok i2 (p := t) (e := a.gone) (by rw [i3, upd_self])
  refine ⟨s4, by rw [stdSwap, h1, Option.bind_some, show evAssign t' s1 p p = some s1 from if_pos rfl, Option.bind_some, i1]; exact j2, j3, ?_, by rw [j5, i4, h4], ?_⟩
  · rw [j4, i3, h3]
    funext x; simp only [upd_apply]
    by_cases x1 : x = t
    · subst x1; simp [ht]
    · by_cases x2 : x = p
      · subst x2; simp [x1, hp]
      · simp [x1, x2]
  · have := (h5.trans i5).trans j6
    simp only [Ev.gone, Option.toList_none, List.append_nil] at this
    exact this.mono (fun x hx => by grind)

theorem timed_swap_self {s : St} (k : Low s) (t1 : RVar s (.tmp 1) none) (t2 : RVar s (.tmp 2) none) {p : Loc} {v : Option Val} (hp : RVar s p (some (.timed, v))) :
    ∃ s', tSwap s p p = some s' ∧ Post s s' (fun r => r = p) [] ∧ RVar s' p (some (.timed, v)) := by
  obtain ⟨a1, f, t, x, a2, a3, a4, a5, a6, a7⟩ := hp
  obtain ⟨s1, h1, h2, h3, h4, h5⟩ := stdSwap_self k (t := ⟨.tmp 1, .self⟩) (t' := ⟨.tmp 2, .self⟩) (t1.1 _) (t2.1 _) (by simp) a2
  obtain ⟨s2, i1, i2, i3, i4, i5⟩ := stdSwap_self h2 (t := ⟨.tmp 1, .self⟩) (t' := ⟨.tmp 2, .self⟩) (p := ⟨p, .timer⟩) (a := t)
    (by rw [h3, t1.1]) (by rw [h3, t2.1]) (by simp) (by rw [h3, a3])
  have hev : s2.ev = s.ev := i3.trans h3
  have e1 : s2.tm p = some x := by rw [i4, h4, a4]
  let s3 : St := { s2 with tm := upd (upd s2.tm p (some x)) p (some x), out := s2.out ++ indetIf (x.timeout = none ∨ x.timeout = none) }
  obtain ⟨s4, j1, j2, j3, j4, j5, j6⟩ := tData_ok (s := s3) (i2.tm _ _) (p := p) (f := f) (t := t) (by show s2.ev _ = _; rw [hev, a2]) (by show s2.ev _ = _; rw [hev, a3]) a7.both
  have hev4 : s4.ev = s.ev := j3.trans hev
  obtain ⟨s5, l1, l2, l3, l4, l5, l6⟩ := tData_ok j2 (p := p) (f := f) (t := t) (by rw [hev4, a2]) (by rw [hev4, a3]) a7.both
  have eff : Eff s s5 (fun h => f.ev = some h ∨ t.ev = some h) [] := by
    have := (((h5.trans i5).trans (Eff.tm s2 (upd (upd s2.tm p (some x)) p (some x)) (indetIf (x.timeout = none ∨ x.timeout = none)) (by simp))).trans j5).trans l5
    exact this.mono (fun y hy => by grind)
  have hev5 : s5.ev = s.ev := l3.trans hev4
  have htm : s5.tm = s.tm := by
    rw [l4, j4]; show upd (upd s2.tm _ _) _ _ = _; rw [i4, h4]
    funext r; simp only [upd_apply]; split
    · subst_vars; exact a4.symm
    · rfl
  refine ⟨s5, ?_, post_of k l2 eff (fun r hr => ⟨fun a => by rw [hev5], by rw [htm]⟩) (fun h hh => ?_), ?_⟩
  · simp only [tSwap, h1, Option.bind_some, i1, e1]
    exact (congrArg (fun z => Option.bind z (fun s => tData s p)) j1).trans l1
  · rcases hh with (hh | hh) | hh
    · exact ⟨p, rfl, .fd, f, a2, hh⟩
    · exact ⟨p, rfl, .timer, t, a3, hh⟩
    · cases hh
  · exact ⟨by rw [hev5, a1], f, t, x, by rw [hev5, a2], by rw [hev5, a3], by rw [htm, a4], a5, a6, a7.move k a2 a3 eff (by simp) l6⟩

/-! # Operations that change an object in place -/

/-- Two events with the same handle. -/
def Same : Option Ev → Option Ev → Prop
  | none, none => True
  | some e, some f => e.ev = f.ev ∧ e.ec = f.ec
  | _, _ => False

theorem Low.same {s s' : St} (k : Low s) (h : ∀ h, (s'.hd h).st = (s.hd h).st ∧ (s'.hd h).loop = (s.hd h).loop) (h1 : ∀ p, Same (s'.ev p) (s.ev p)) (h2 : s'.live = s.live) (h3 : s'.loops = s.loops)
    (h4 : s'.ext = s.ext) (h5 : s'.running = s.running) (h6 : s'.nextH = s.nextH) (h7 : s'.nextL = s.nextL) : Low s' := by
  have back : ∀ p e, s'.ev p = some e → ∃ f, s.ev p = some f ∧ e.ev = f.ev ∧ e.ec = f.ec := fun p e hp => by
    have := h1 p; rw [hp] at this
    match hs : s.ev p, this with
    | some f, this => exact ⟨f, rfl, this⟩
    | none, this => exact this.elim
  constructor
  · intro p e x a b
    obtain ⟨f, c1, c2, c3⟩ := back p e a
    rw [(h x).1, (h x).2, h6, c3]; exact k.own p f x c1 (c2 ▸ b)
  · intro p q e f x a b c d
    obtain ⟨e', c1, c2, _⟩ := back p e a
    obtain ⟨f', d1, d2, _⟩ := back q f b
    exact k.inj p q e' f' x c1 d1 (c2 ▸ c) (d2 ▸ d)
  · intro x a
    rw [(h x).1] at a
    obtain ⟨p, e, b, c⟩ := k.op x a
    have := h1 p; rw [b] at this
    match hs : s'.ev p, this with
    | some f, this => exact ⟨p, f, hs, this.1.trans c⟩
    | none, this => exact this.elim
  · intro p
    rw [h2, k.live p]
    have := h1 p
    cases ha : s'.ev p <;> cases hb : s.ev p <;> rw [ha, hb] at this <;> simp_all [Same]
  · rw [h2]; exact k.nodup
  · intro p e l a b
    obtain ⟨f, c1, c2, c3⟩ := back p e a
    rw [h3]; exact k.lp p f l c1 (c3 ▸ b)
  · rw [h4, h3]; exact k.ext
  · rw [h4, h5]; exact k.run
  · intro x a; rw [(h x).1]; rw [h6] at a; exact k.fresh x a
  · rw [h7, h3]; exact k.freshL

theorem Same.rfl' (e : Option Ev) : Same e e := by cases e <;> simp [Same]

/-- An operation that changes objects and handles at P only. -/
theorem post_any {s s' : St} {P : Loc → Prop} {o : List Out} (k : Low s) (k' : Low s') (he : ∀ p, ¬ P p → (∀ a, s'.ev ⟨p, a⟩ = s.ev ⟨p, a⟩) ∧ s'.tm p = s.tm p)
    (hh : ∀ h, (s.hd h).st = .opened → s'.hd h = s.hd h ∨ ∃ q, P q ∧ Held s q h) (h1 : s'.ext = s.ext) (h2 : s'.running = s.running) (h3 : s'.nextH = s.nextH) (h4 : s'.nextL = s.nextL)
    (h5 : seen s'.out = seen s.out ++ o) : Post s s' P o where
  low := k'
  frame p hp x r := r.frame (he p hp).1 (he p hp).2 (fun h hx => by
    obtain ⟨a, e, c, d⟩ := hx
    rcases hh h (k.own _ _ _ c d).1 with h6 | ⟨q, h6, b, f, h7, h8⟩
    · exact h6
    · have := k.inj _ _ _ _ h c h7 d h8
      exact absurd h6 (by cases this; exact hp))
  ext := h1
  running := h2
  nextH := h3
  nextL := h4
  out := h5

theorem one_setCb {s : St} (k : Low s) {p : Loc} {c : Cls} {v : Option Val} (n : Nat) (hp : RVar s p (some (.one c, v))) :
    ∃ s', evSetCb s ⟨p, .self⟩ n = some s' ∧ Post s s' (fun r => r = p) [] ∧ RVar s' p (some (.one c, v.map ({ · with cb := some n }))) := by
  obtain ⟨a1, a2, a3, e, a4, a5, a6⟩ := hp
  simp only [evSetCb, a4]
  refine ⟨_, rfl, ?_, ?_⟩
  · refine post_any k ?_ (fun r hr => ⟨fun a => upd1_ne hr a, rfl⟩) (fun _ _ => .inl rfl) rfl rfl rfl rfl (by rw [St.say]; simp [St.setEv])
    refine k.same (fun _ => ⟨rfl, rfl⟩) (fun r => ?_) rfl rfl rfl rfl rfl rfl
    simp only [St.say, St.setEv, upd_apply]
    split
    · subst_vars; rw [a4]; exact ⟨rfl, rfl⟩
    · exact Same.rfl' _
  · refine ⟨?_, ?_, a3, { e with cb := some n }, ?_, a5, ?_⟩
    · simp only [St.say, St.setEv]; rw [upd_ne _ _ (by simp), a1]
    · simp only [St.say, St.setEv]; rw [upd_ne _ _ (by simp), a2]
    · simp only [St.say, St.setEv]; rw [upd_self]
    · cases v with
      | none => exact a6
      | some v => obtain ⟨i1, i2, i3, i4, i5, i6⟩ := a6; exact ⟨i1, i2, i3, rfl, i5, i6.congr rfl⟩

theorem timed_setCb {s : St} (k : Low s) {p : Loc} {v : Option Val} (n : Nat) (hp : RVar s p (some (.timed, v))) :
    ∃ s', tSetCb s p n = some s' ∧ Post s s' (fun r => r = p) [] ∧ RVar s' p (some (.timed, v.map ({ · with cb := some n }))) := by
  obtain ⟨a1, f, t, x, a2, a3, a4, a5, a6, a7⟩ := hp
  simp only [tSetCb, a4]
  refine ⟨_, rfl, ?_, ?_⟩
  · refine post_any k (k.data (fun _ => ⟨rfl, rfl⟩) rfl rfl rfl rfl rfl rfl rfl) (fun r hr => ⟨fun a => rfl, upd_ne _ _ hr⟩) (fun _ _ => .inl rfl) rfl rfl rfl rfl (by rw [St.say]; simp)
  · refine ⟨a1, f, t, { x with cb := some n }, a2, a3, ?_, a5, a6, ?_⟩
    · simp only [St.say]; rw [upd_self]
    · cases v with
      | none => exact a7
      | some v =>
        obtain ⟨ht, i1, i2, i3, i4, i5, i6, i7, i8, i9, i10⟩ := a7
        exact ⟨ht, i1, i2, i3, i4, i5, rfl, i7, i8, i9.congr rfl, i10.congr rfl⟩

theorem upd_hd_st {s : St} {h : Nat} {x : Hd} (h1 : x.st = (s.hd h).st) (h2 : x.loop = (s.hd h).loop) (y : Nat) : (upd s.hd h x y).st = (s.hd y).st ∧ (upd s.hd h x y).loop = (s.hd y).loop := by
  rw [upd_apply]; split
  · subst_vars; exact ⟨h1, h2⟩
  · exact ⟨rfl, rfl⟩

/-- A handle is started or stopped. -/
theorem Low.setHd {s : St} (k : Low s) {h : Nat} {x : Hd} (h1 : x.st = (s.hd h).st) (h2 : x.loop = (s.hd h).loop) : Low (s.setHd h x) :=
  k.data (fun y => upd_hd_st h1 h2 y) rfl rfl rfl rfl rfl rfl rfl

theorem post_setHd {s : St} (k : Low s) {p : Loc} {h : Nat} {x : Hd} (h1 : x.st = (s.hd h).st) (h2 : x.loop = (s.hd h).loop) (hp : Held s p h) : Post s (s.setHd h x) (fun r => r = p) [] :=
  post_any k (k.setHd h1 h2) (fun _ _ => ⟨fun _ => rfl, rfl⟩) (fun y _ => by
    by_cases e : y = h
    · subst e; exact .inr ⟨p, rfl, hp⟩
    · exact .inl (by simp [St.setHd, upd_ne _ _ e])) rfl rfl rfl rfl (by simp [St.setHd])

theorem post_say {s : St} (k : Low s) (P : Loc → Prop) (o : List Out) : Post s (s.say o) P (seen o) :=
  post_any k (k.data (fun _ => ⟨rfl, rfl⟩) rfl rfl rfl rfl rfl rfl rfl) (fun _ _ => ⟨fun _ => rfl, rfl⟩) (fun _ _ => .inl rfl) rfl rfl rfl rfl (by simp [St.say])

theorem RVar.say {s : St} {p : Loc} {x : Option (Kind × Option Val)} (r : RVar s p x) (o : List Out) : RVar (s.say o) p x := r.frame (fun _ => rfl) rfl (fun _ _ => rfl)

theorem one_add {s : St} (k : Low s) {p : Loc} {c : Cls} {v : Val} (once : Bool) (ms : Nat) (hp : RVar s p (some (.one c, some v))) :
    ∃ s', evAdd s ⟨p, .self⟩ once ms = some s' ∧ Post s s' (fun r => r = p) (if c = .timer then [.timer v.h ms] else []) ∧
      RVar s' p (some (.one c, some { v with on := true, once := match c with | .timer => true | .sig => once | _ => false })) := by
  obtain ⟨a1, a2, a3, e, a4, a5, i1, i2, i3, i4, i5, i6⟩ := hp
  have ho := (k.own _ _ _ a4 i2).1
  have hh : Held s p v.h := ⟨.self, e, a4, i2⟩
  have key : ∀ (o : Bool) (m : Nat), Post s (s.setHd v.h { s.hd v.h with active := true, thn := .plain, once := o, ms := m }) (fun r => r = p) [] ∧
      RVar (s.setHd v.h { s.hd v.h with active := true, thn := .plain, once := o, ms := m }) p (some (.one c, some { v with on := true, once := o })) := fun o m =>
    ⟨post_setHd k rfl rfl hh, a1, a2, a3, e, a4, a5, i1, i2, i3, i4, i5, by simp [St.setHd, i6.data], by simp [St.setHd], by simp [St.setHd]⟩
  simp only [evAdd, a4, i2, a5]
  cases c with
  | timer =>
    simp only [uvStart, if_pos ho, Option.map_some]
    have := (key true ms).1.trans (post_say (key true ms).1.low (fun r => r = p) [.timer v.h ms])
    exact ⟨_, rfl, by simpa [seen] using this, (key true ms).2.say _⟩
  | sig => simp only [uvStart, if_pos ho]; exact ⟨_, rfl, by simpa using (key once 0).1, (key once 0).2⟩
  | fd => simp only [uvStart, if_pos ho]; exact ⟨_, rfl, by simpa using (key false 0).1, (key false 0).2⟩
  | check => simp only [uvStart, if_pos ho]; exact ⟨_, rfl, by simpa using (key false 0).1, (key false 0).2⟩

theorem one_del {s : St} (k : Low s) {p : Loc} {c : Cls} {v : Option Val} (hp : RVar s p (some (.one c, v))) :
    ∃ s', evDel s ⟨p, .self⟩ = some s' ∧ Post s s' (fun r => r = p) [] ∧ RVar s' p (some (.one c, v.map ({ · with on := false, ton := false }))) := by
  obtain ⟨a1, a2, a3, e, a4, a5, a6⟩ := hp
  cases v with
  | none =>
    have : e.ev = none := a6
    simp only [evDel, a4, this]
    exact ⟨s, rfl, post_any k k (fun _ _ => ⟨fun _ => rfl, rfl⟩) (fun _ _ => .inl rfl) rfl rfl rfl rfl (by simp), a1, a2, a3, e, a4, a5, a6⟩
  | some v =>
    obtain ⟨i1, i2, i3, i4, i5, i6⟩ := a6
    have ho := (k.own _ _ _ a4 i2).1
    simp only [evDel, a4, i2, uvStop, if_pos ho]
    exact ⟨_, rfl, post_setHd k rfl rfl ⟨.self, e, a4, i2⟩, a1, a2, a3, e, a4, a5, i1, i2, i3, i4, i5, by simp [St.setHd, i6.data], by simp [St.setHd], by simp⟩

theorem TmOk.ne {s : St} (k : Low s) {p : Loc} {f t : Ev} {x y : Nat} (a2 : s.ev ⟨p, .fd⟩ = some f) (a3 : s.ev ⟨p, .timer⟩ = some t) (hx : f.ev = some x) (hy : t.ev = some y) : x ≠ y := fun e => by
  have := k.inj _ _ _ _ x a2 a3 hx (by rw [hy, e]); simp at this

theorem timed_add {s : St} (k : Low s) {p : Loc} {v : Val} (ms : Nat) (hp : RVar s p (some (.timed, some v))) :
    ∃ s', tAdd s p ms = some s' ∧ Post s s' (fun r => r = p) (v.t.toList.map (.timer · ms)) ∧ RVar s' p (some (.timed, some { v with on := true, once := false, ton := true, ms := ms })) := by
  obtain ⟨a1, f, t, x, a2, a3, a4, a5, a6, ht, i1, i2, i3, i4, i5, i6, i7, i8, i9, i10⟩ := hp
  have o1 := (k.own _ _ _ a2 i2).1
  have o2 := (k.own _ _ _ a3 i3).1
  have hne := TmOk.ne k a2 a3 i2 i3
  simp only [tAdd, a4, a2, a3, i2, i3, uvStart, if_pos o2, Option.bind_some]
  simp only [St.say, St.setHd, upd_ne _ _ hne, if_pos o1]
  refine ⟨_, rfl, post_any k ?_ (fun r hr => ⟨fun _ => rfl, upd_ne _ _ hr⟩) (fun y hy => ?_) rfl rfl rfl rfl ?_, ?_⟩
  · refine k.data (fun y => ?_) rfl rfl rfl rfl rfl rfl rfl
    simp only [upd_apply]
    by_cases e1 : y = v.h
    · subst e1; simp [hne]
    · by_cases e2 : y = ht
      · subst e2; simp [e1]
      · simp [e1, e2]
  · by_cases e1 : y = v.h
    · subst e1; exact .inr ⟨p, rfl, .fd, f, a2, i2⟩
    · by_cases e2 : y = ht
      · subst e2; exact .inr ⟨p, rfl, .timer, t, a3, i3⟩
      · exact .inl (by simp [upd_apply, e1, e2])
  · simp only [seen_append, i1]; rfl
  · refine ⟨a1, f, t, { x with timeout := some ms }, a2, a3, by simp, a5, a6, ht, i1, i2, i3, i4, i5, i6, i7, fun _ => rfl, ⟨?_, ?_, ?_⟩, ⟨?_, ?_, ?_⟩⟩ <;>
      simp [upd_apply, hne, hne.symm, i9.data, i10.data]

theorem timed_del {s : St} (k : Low s) {p : Loc} {v : Option Val} (hp : RVar s p (some (.timed, v))) :
    ∃ s', tDel s p = some s' ∧ Post s s' (fun r => r = p) [] ∧ RVar s' p (some (.timed, v.map ({ · with on := false, ton := false }))) := by
  obtain ⟨a1, f, t, x, a2, a3, a4, a5, a6, a7⟩ := hp
  cases v with
  | none =>
    have h1 : f.ev = none := a7.1
    have h2 : t.ev = none := a7.2
    simp only [tDel, evDel, a3, h2, Option.bind_some, a2, h1]
    exact ⟨s, rfl, post_any k k (fun _ _ => ⟨fun _ => rfl, rfl⟩) (fun _ _ => .inl rfl) rfl rfl rfl rfl (by simp), a1, f, t, x, a2, a3, a4, a5, a6, a7⟩
  | some v =>
    obtain ⟨ht, i1, i2, i3, i4, i5, i6, i7, i8, i9, i10⟩ := a7
    have o1 := (k.own _ _ _ a2 i2).1
    have o2 := (k.own _ _ _ a3 i3).1
    have hne := TmOk.ne k a2 a3 i2 i3
    simp only [tDel, evDel, a3, i3, uvStop, if_pos o2, Option.bind_some, St.setHd, a2, i2, upd_ne _ _ hne, if_pos o1]
    refine ⟨_, rfl, post_any k ?_ (fun r hr => ⟨fun _ => rfl, rfl⟩) (fun y hy => ?_) rfl rfl rfl rfl (by simp), ?_⟩
    · refine k.data (fun y => ?_) rfl rfl rfl rfl rfl rfl rfl
      simp only [upd_apply]
      by_cases e1 : y = v.h
      · subst e1; simp [hne]
      · by_cases e2 : y = ht
        · subst e2; simp [e1]
        · simp [e1, e2]
    · by_cases e1 : y = v.h
      · subst e1; exact .inr ⟨p, rfl, .fd, f, a2, i2⟩
      · by_cases e2 : y = ht
        · subst e2; exact .inr ⟨p, rfl, .timer, t, a3, i3⟩
        · exact .inl (by simp [upd_apply, e1, e2])
    · refine ⟨a1, f, t, x, a2, a3, a4, a5, a6, ht, i1, i2, i3, i4, i5, i6, i7, by simp, ⟨?_, ?_, ?_⟩, ⟨?_, ?_, ?_⟩⟩ <;>
        simp [upd_apply, hne, hne.symm, i9.data, i10.data]

/-! # New objects -/

theorem evEmpty_ok {s : St} (k : Low s) {p : Ptr} (c : Cls) (hp : s.ev p = none) : Low (evEmpty s p c) := by
  have hl : p ∉ s.live := fun h => (k.live p).mp h hp
  constructor <;> simp only [evEmpty, St.setEv]
  · intro r e h a b
    rw [upd_apply] at a; split at a
    · cases a; cases b
    · exact k.own r e h a b
  · intro r t e f h a b c' d
    rw [upd_apply] at a b
    split at a
    · cases a; cases c'
    · split at b
      · cases b; cases d
      · exact k.inj r t e f h a b c' d
  · intro h a
    obtain ⟨r, e, b, c'⟩ := k.op h a
    exact ⟨r, e, by rw [upd_ne _ _ (fun h => by subst h; rw [hp] at b; cases b), b], c'⟩
  · intro r
    simp only [List.mem_cons, k.live r, upd_apply]
    by_cases h : r = p <;> simp [h]
  · exact List.nodup_cons.mpr ⟨hl, k.nodup⟩
  · intro r e l a b
    rw [upd_apply] at a; split at a
    · cases a; cases b
    · exact k.lp r e l a b
  · exact k.ext
  · exact k.run
  · exact k.fresh
  · exact k.freshL

theorem one_empty {s : St} (k : Low s) {p : Loc} (c : Cls) (hp : RVar s p none) :
    Post s (evEmpty s ⟨p, .self⟩ c) (fun r => r = p) [] ∧ RVar (evEmpty s ⟨p, .self⟩ c) p (some (.one c, none)) := by
  refine ⟨post_any k (evEmpty_ok k c (hp.1 _)) (fun r hr => ⟨fun a => upd1_ne hr a, rfl⟩) (fun _ _ => .inl rfl) rfl rfl rfl rfl (by simp [evEmpty, St.setEv]), ?_⟩
  refine ⟨?_, ?_, hp.2, ⟨c, none, none, none, none⟩, ?_, rfl, rfl⟩ <;> simp only [evEmpty, St.setEv]
  · rw [upd_ne _ _ (by simp), hp.1]
  · rw [upd_ne _ _ (by simp), hp.1]
  · rw [upd_self]

theorem timed_empty {s : St} (k : Low s) {p : Loc} (hp : RVar s p none) :
    Post s (tEmpty s p) (fun r => r = p) [] ∧ RVar (tEmpty s p) p (some (.timed, none)) := by
  have k1 := evEmpty_ok k (p := ⟨p, .fd⟩) .fd (hp.1 _)
  have k2 := evEmpty_ok k1 (p := ⟨p, .timer⟩) .timer (by simp only [evEmpty, St.setEv]; rw [upd_ne _ _ (by simp), hp.1])
  refine ⟨post_any k (k2.data (fun _ => ⟨rfl, rfl⟩) rfl rfl rfl rfl rfl rfl rfl) (fun r hr => ⟨fun a => ?_, upd_ne _ _ hr⟩) (fun _ _ => .inl rfl) rfl rfl rfl rfl (by simp [tEmpty, evEmpty, St.setEv]), ?_⟩
  · simp only [tEmpty, evEmpty, St.setEv]; rw [upd_ne _ _ (by simp [hr]), upd_ne _ _ (by simp [hr])]
  · refine ⟨?_, ⟨.fd, none, none, none, none⟩, ⟨.timer, none, none, none, none⟩, ⟨none, none⟩, ?_, ?_, ?_, rfl, rfl, rfl, rfl⟩ <;> simp only [tEmpty, evEmpty, St.setEv]
    · rw [upd_ne _ _ (by simp), upd_ne _ _ (by simp), hp.1]
    · rw [upd_ne _ _ (by simp), upd_self]
    · rw [upd_self]
    · rw [upd_self]

theorem evNew_ok {s : St} (k : Low s) {p : Ptr} (c : Cls) {l : Nat} (cb : Option Nat) (fd : Nat) (hp : s.ev p = none) (hl : s.loops l = true) :
    ∃ s', evNew s p c l cb fd = some s' ∧ Low s' ∧ s'.ev = upd s.ev p (some ⟨c, some l, if c = .fd then some fd else none, some s.nextH, cb⟩) ∧ s'.tm = s.tm ∧ (∀ h, h ≠ s.nextH → s'.hd h = s.hd h) ∧
      s'.hd s.nextH = ⟨l, some p, false, false, .plain, 0, .opened⟩ ∧ s'.nextH = s.nextH + 1 ∧ s'.ext = s.ext ∧ s'.running = s.running ∧ s'.nextL = s.nextL ∧ s'.loops = s.loops ∧ s'.out = s.out := by
  have hnl : p ∉ s.live := fun h => (k.live p).mp h hp
  simp only [evNew, hp, hl, Option.isSome_none, Bool.false_eq_true, Bool.true_eq_false, or_self, if_false, newHd, if_true, St.setHd, St.setEv, setData, upd_self]
  rw [if_neg (by simp)]
  refine ⟨_, rfl, ?_, rfl, rfl, fun h hh => by dsimp only; rw [upd_ne _ _ hh, upd_ne _ _ hh], by dsimp only; rw [upd_self], rfl, rfl, rfl, rfl, rfl, rfl⟩
  have hu : ∀ h, h ≠ s.nextH → upd (upd s.hd s.nextH ⟨l, none, false, false, .plain, 0, .opened⟩) s.nextH ⟨l, some p, false, false, .plain, 0, .opened⟩ h = s.hd h := fun h hh => by rw [upd_ne _ _ hh, upd_ne _ _ hh]
  have hold : ∀ r e h, s.ev r = some e → e.ev = some h → h ≠ s.nextH := fun r e h a b => by have := (k.own r e h a b).2.2; omega
  constructor <;> dsimp only
  · intro r e h a b
    rw [upd_apply] at a; split at a
    · cases a; cases b; rw [upd_self]; exact ⟨rfl, rfl, by omega⟩
    · rw [hu h (hold r e h a b)]
      have := k.own r e h a b
      exact ⟨this.1, this.2.1, by omega⟩
  · intro r t e f h a b c' d
    rw [upd_apply] at a b
    split at a
    · cases a; cases c'
      split at b
      · subst_vars; rfl
      · exact absurd rfl (hold _ _ _ b d)
    · split at b
      · cases b; cases d; exact absurd rfl (hold _ _ _ a c')
      · exact k.inj r t e f h a b c' d
  · intro h a
    by_cases hh : h = s.nextH
    · exact ⟨p, _, by rw [upd_self], by rw [hh]⟩
    · rw [hu h hh] at a
      obtain ⟨r, e, b, c'⟩ := k.op h a
      exact ⟨r, e, by rw [upd_ne _ _ (fun h => by subst h; rw [hp] at b; cases b), b], c'⟩
  · intro r
    simp only [List.mem_cons, k.live r, upd_apply]
    by_cases h : r = p <;> simp [h]
  · exact List.nodup_cons.mpr ⟨hnl, k.nodup⟩
  · intro r e l' a b
    rw [upd_apply] at a; split at a
    · cases a; cases b; exact hl
    · exact k.lp r e l' a b
  · exact k.ext
  · exact k.run
  · intro h a
    rw [hu h (by omega)]; exact k.fresh h (by omega)
  · exact k.freshL

end Event
end Salticidae
