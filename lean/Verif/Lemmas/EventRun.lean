import Verif.Lemmas.EventSim
/-!
Every step of a program does to the memory what it does to the values.
-/
namespace Salticidae
namespace Event
open Spec.Event (seen Val Sp owns holder happen)

structure R (s : St) (a : Sp) : Prop where
  low : Low s
  var : ∀ o, RVar s (.obj o) (a.var o)
  tmp : ∀ k, RVar s (.tmp k) none
  names : ∀ o, a.var o ≠ none → o ∈ a.names
  ext : s.ext = a.ext
  running : s.running = a.running
  nextH : s.nextH = a.nextH
  nextL : s.nextL = a.nextL
  out : seen s.out = a.out

theorem R_init : R init Spec.Event.init where
  low := {
    own := fun _ _ _ h => by cases h
    inj := fun _ _ _ _ _ h => by cases h
    op := fun _ h => by cases h
    live := fun _ => by simp [init]
    nodup := List.nodup_nil
    lp := fun _ _ _ h => by cases h
    ext := fun _ h => by cases h
    run := fun _ h => by cases h
    fresh := fun _ _ => rfl
    freshL := fun _ _ => rfl }
  var _ := ⟨fun _ => rfl, rfl⟩
  tmp _ := ⟨fun _ => rfl, rfl⟩
  names _ h := absurd rfl h
  ext := rfl
  running := rfl
  nextH := rfl
  nextL := rfl
  out := rfl

theorem R.post1 {s s' : St} {a : Sp} (r : R s a) {o : Nat} {x : Option (Kind × Option Val)} {l : List Out} (h : Post s s' (fun p => p = .obj o) l) (hx : RVar s' (.obj o) x)
    {b : Sp} (e1 : b.var = upd a.var o x) (e2 : b.names = a.names ∨ b.names = o :: a.names) (e2' : a.var o ≠ none ∨ x = none ∨ b.names = o :: a.names) (e3 : b.nextH = a.nextH) (e4 : b.nextL = a.nextL) (e5 : b.ext = a.ext) (e6 : b.running = a.running)
    (e7 : b.out = a.out ++ l) : R s' b where
  low := h.low
  var p := by
    rw [e1, upd_apply]; split
    · subst_vars; exact hx
    · exact h.frame _ (by simpa using ‹_›) _ (r.var p)
  tmp k := h.frame _ (by simp) _ (r.tmp k)
  names p hp := by
    have hm : p ∈ a.names → p ∈ b.names := fun h => by rcases e2 with e | e <;> rw [e] <;> simp [h]
    rw [e1, upd_apply] at hp; split at hp
    · subst_vars
      rcases e2' with e | e | e
      · exact hm (r.names _ e)
      · exact absurd e hp
      · rw [e]; simp
    · exact hm (r.names p hp)
  ext := by rw [h.ext, e5, r.ext]
  running := by rw [h.running, e6, r.running]
  nextH := by rw [h.nextH, e3, r.nextH]
  nextL := by rw [h.nextL, e4, r.nextL]
  out := by rw [h.out, e7, r.out]

theorem R.post2 {s s' : St} {a : Sp} (r : R s a) {o q : Nat} {x y : Option (Kind × Option Val)} {l : List Out} (h : Post s s' (fun p => p = .obj o ∨ p = .obj q) l) (hx : RVar s' (.obj o) x) (hy : RVar s' (.obj q) y)
    {b : Sp} (e1 : b.var = upd (upd a.var q y) o x) (e2 : b.names = a.names ∨ b.names = o :: a.names) (e2' : a.var o ≠ none ∨ b.names = o :: a.names) (e2'' : a.var q ≠ none) (e3 : b.nextH = a.nextH) (e4 : b.nextL = a.nextL) (e5 : b.ext = a.ext) (e6 : b.running = a.running)
    (e7 : b.out = a.out ++ l) : R s' b where
  low := h.low
  var p := by
    rw [e1, upd_apply]; split
    · subst_vars; exact hx
    · rw [upd_apply]; split
      · subst_vars; exact hy
      · exact h.frame _ (by simp_all) _ (r.var p)
  tmp k := h.frame _ (by simp) _ (r.tmp k)
  names p hp := by
    have hm : p ∈ a.names → p ∈ b.names := fun h => by rcases e2 with e | e <;> rw [e] <;> simp [h]
    rw [e1, upd_apply] at hp; split at hp
    · subst_vars
      rcases e2' with e | e
      · exact hm (r.names _ e)
      · rw [e]; simp
    · rw [upd_apply] at hp; split at hp
      · subst_vars; exact hm (r.names _ e2'')
      · exact hm (r.names p hp)
  ext := by rw [h.ext, e5, r.ext]
  running := by rw [h.running, e6, r.running]
  nextH := by rw [h.nextH, e3, r.nextH]
  nextL := by rw [h.nextL, e4, r.nextL]
  out := by rw [h.out, e7, r.out]

/-! # Construction -/

theorem R.new_one {s : St} {a : Sp} (r : R s a) {o : Nat} (c : Cls) {l : Nat} (cb : Option Nat) (fd : Nat) (ho : a.var o = none) (hl : a.ext l ≠ 0) {b : Sp}
    (e1 : b.var = upd a.var o (some (.one c, some ⟨a.nextH, none, l, cb, fd, false, false, false, 0⟩))) (e2 : b.names = o :: a.names) (e3 : b.nextH = a.nextH + 1) (e4 : b.nextL = a.nextL) (e5 : b.ext = a.ext) (e6 : b.running = a.running)
    (e7 : b.out = a.out) : ∃ s', evNew s ⟨.obj o, .self⟩ c l cb fd = some s' ∧ R s' b := by
  have k := r.low
  have hv := r.var o
  rw [ho] at hv
  obtain ⟨s', h1, h2, h3, h4, h5, h6, h7, h8, h9, h10, _, h11⟩ := evNew_ok k (p := ⟨.obj o, .self⟩) c cb fd (hv.1 _) (k.ext l (by rw [r.ext]; omega))
  have fr : ∀ p, p ≠ .obj o → ∀ x, RVar s p x → RVar s' p x := fun p hp x rv => rv.frame (fun b => by rw [h3, upd_ne _ _ (by simp [hp])]) (by rw [h4]) (fun h hh => by
    obtain ⟨b, e, h1, h2⟩ := hh
    exact h5 h (fun e' => by have := (k.own _ _ _ h1 h2).2.2; omega))
  refine ⟨s', h1, h2, fun p => ?_, fun j => fr _ (by simp) _ (r.tmp j), fun p hp => ?_, by rw [h8, e5, r.ext], by rw [h9, e6, r.running], by rw [h7, e3, r.nextH], by rw [h10, e4, r.nextL], by rw [h11, e7, r.out]⟩
  · rw [e1, upd_apply]; split
    · subst_vars
      refine ⟨?_, ?_, by rw [h4, hv.2], _, by rw [h3, upd_self], rfl, rfl, by rw [r.nextH], rfl, rfl, fun h => by simp [h], ?_⟩
      · rw [h3, upd_ne _ _ (by simp), hv.1]
      · rw [h3, upd_ne _ _ (by simp), hv.1]
      · rw [← r.nextH]
        exact ⟨by rw [h6], by rw [h6], fun h => by cases h⟩
    · exact fr _ (by simpa using ‹_›) _ (r.var p)
  · rw [e2]
    rw [e1, upd_apply] at hp; split at hp
    · subst_vars; simp
    · exact List.mem_cons_of_mem _ (r.names p hp)

theorem R.new_timed {s : St} {a : Sp} (r : R s a) {o : Nat} {l : Nat} (cb : Option Nat) (fd : Nat) (ho : a.var o = none) (hl : a.ext l ≠ 0) {b : Sp}
    (e1 : b.var = upd a.var o (some (.timed, some ⟨a.nextH, some (a.nextH + 1), l, cb, fd, false, false, false, 0⟩))) (e2 : b.names = o :: a.names) (e3 : b.nextH = a.nextH + 2) (e4 : b.nextL = a.nextL) (e5 : b.ext = a.ext) (e6 : b.running = a.running)
    (e7 : b.out = a.out) : ∃ s', tNew s (.obj o) l cb fd = some s' ∧ R s' b := by
  have k := r.low
  have hv := r.var o
  rw [ho] at hv
  have hloop := k.ext l (by rw [r.ext]; omega)
  obtain ⟨s1, h1, h2, h3, h4, h5, h6, h7, h8, h9, h10, hl1, h11⟩ := evNew_ok k (p := ⟨.obj o, .fd⟩) .fd none fd (hv.1 _) hloop
  obtain ⟨s2, i1, i2, i3, i4, i5, i6, i7, i8, i9, i10, _, i11⟩ := evNew_ok h2 (p := ⟨.obj o, .timer⟩) .timer none 0 (by rw [h3, upd_ne _ _ (by simp), hv.1]) (by rw [hl1]; exact hloop)
  let s3 : St := { s2 with tm := upd s2.tm (.obj o) (some ⟨cb, none⟩) }
  have k3 : Low s3 := i2.data (fun _ => ⟨rfl, rfl⟩) rfl rfl rfl rfl rfl rfl rfl
  have ef : s3.ev ⟨.obj o, .fd⟩ = some ⟨.fd, some l, some fd, some s.nextH, none⟩ := by show s2.ev _ = _; rw [i3, upd_ne _ _ (by simp), h3, upd_self]; rfl
  have et : s3.ev ⟨.obj o, .timer⟩ = some ⟨.timer, some l, none, some s1.nextH, none⟩ := by show s2.ev _ = _; rw [i3, upd_self]; rfl
  obtain ⟨s4, j1, j2, j3, j4, j5, j6⟩ := tData_ok k3 ef et rfl
  have hev : s4.ev = upd (upd s.ev ⟨.obj o, .fd⟩ (some ⟨.fd, some l, some fd, some s.nextH, none⟩)) ⟨.obj o, .timer⟩ (some ⟨.timer, some l, none, some s1.nextH, none⟩) := by
    rw [j3]; show s2.ev = _; rw [i3, h3]; rfl
  have htm : s4.tm = upd s.tm (.obj o) (some ⟨cb, none⟩) := by rw [j4]; show upd s2.tm _ _ = _; rw [i4, h4]
  have fr : ∀ p, p ≠ .obj o → ∀ x, RVar s p x → RVar s4 p x := fun p hp x rv => rv.frame (fun b => by rw [hev, upd_ne _ _ (by simp [hp]), upd_ne _ _ (by simp [hp])]) (by rw [htm, upd_ne _ _ hp]) (fun h hh => by
    obtain ⟨b, e, c1, c2⟩ := hh
    have c := k.own _ _ _ c1 c2
    have c3 : s2.hd h = s.hd h := by rw [i5 h (by omega), h5 h (by omega)]
    rw [(j5.hd h (by show (s2.hd h).st = _; rw [c3, c.1]) (by simp)).2 (fun hh => by rcases hh with hh | hh <;> simp at hh <;> omega)]
    exact c3)
  have o1 : s2.hd s.nextH = ⟨l, some ⟨.obj o, .fd⟩, false, false, .plain, 0, .opened⟩ := by rw [i5 _ (by omega), h6]
  have o2 : s2.hd s1.nextH = ⟨l, some ⟨.obj o, .timer⟩, false, false, .plain, 0, .opened⟩ := i6
  refine ⟨s4, ?_, j2, fun p => ?_, fun j => fr _ (by simp) _ (r.tmp j), fun p hp => ?_, ?_, ?_, ?_, ?_, ?_⟩
  · rw [tNew, h1, Option.bind_some, i1, Option.bind_some]; exact j1
  · rw [e1, upd_apply]; split
    · subst_vars
      refine ⟨?_, _, _, _, by rw [j3]; exact ef, by rw [j3]; exact et, by rw [htm, upd_self], rfl, rfl, s1.nextH, by rw [h7, r.nextH], by rw [r.nextH], rfl, rfl, rfl, rfl, rfl, by simp, ?_, ?_⟩
      · rw [hev, upd_ne _ _ (by simp), upd_ne _ _ (by simp), hv.1]
      · rw [← r.nextH]
        have := (j5.hd s.nextH (by show (s2.hd _).st = _; rw [o1]) (by simp)).1
        exact ⟨j6 _ (.inl rfl), by rw [this]; show (s2.hd _).active = _; rw [o1], fun h => by cases h⟩
      · have := (j5.hd s1.nextH (by show (s2.hd _).st = _; rw [o2]) (by simp)).1
        exact ⟨j6 _ (.inr rfl), by rw [this]; show (s2.hd _).active = _; rw [o2], fun h => by cases h⟩
    · exact fr _ (by simpa using ‹_›) _ (r.var p)
  · rw [e2]
    rw [e1, upd_apply] at hp; split at hp
    · subst_vars; simp
    · exact List.mem_cons_of_mem _ (r.names p hp)
  · rw [j5.ext, e5]; show s2.ext = _; rw [i8, h8, r.ext]
  · rw [j5.running, e6]; show s2.running = _; rw [i9, h9, r.running]
  · rw [j5.nextH, e3]; show s2.nextH = _; rw [i7, h7, r.nextH]
  · rw [j5.nextL, e4]; show s2.nextL = _; rw [i10, h10, r.nextL]
  · rw [j5.out, e7]; show seen s2.out ++ _ = _; rw [i11, h11, r.out]; simp

/-- The constructor throws. -/
theorem R.leak {s : St} {a : Sp} (r : R s a) (l : Nat) : R (newHd s l false) (Sp.say { a with nextH := a.nextH + 1 } [.leaked a.nextH]) := by
  have k := r.low
  have hu : ∀ h, h ≠ s.nextH → (newHd s l false).hd h = s.hd h := fun h hh => by simp [newHd, St.say, St.setHd, upd_ne _ _ hh]
  have hs : ∀ h, ((newHd s l false).hd h).st = (s.hd h).st := fun h => by
    by_cases e : h = s.nextH
    · subst e; rw [k.fresh _ (Nat.le_refl _)]; simp [newHd, St.say, St.setHd]
    · rw [hu h e]
  have fr : ∀ p x, RVar s p x → RVar (newHd s l false) p x := fun p x rv => rv.frame (fun b => rfl) rfl (fun h hh => by
    obtain ⟨b, e, c1, c2⟩ := hh
    exact hu h (fun e' => by have := (k.own _ _ _ c1 c2).2.2; omega))
  refine ⟨⟨fun p e h c1 c2 => ?_, k.inj, fun h c => k.op h (by rw [← hs]; exact c), k.live, k.nodup, k.lp, k.ext, k.run, fun h c => ?_, k.freshL⟩, fun o => fr _ _ (r.var o), fun j => fr _ _ (r.tmp j), r.names, r.ext, r.running, ?_, r.nextL, ?_⟩
  · have := k.own p e h c1 c2
    rw [hu h (by omega)]
    exact ⟨this.1, this.2.1, Nat.lt_succ_of_lt this.2.2⟩
  · rw [hs]; exact k.fresh h (by have : s.nextH + 1 ≤ h := c; omega)
  · show s.nextH + 1 = a.nextH + 1; rw [r.nextH]
  · show seen (s.out ++ [.leaked s.nextH]) = a.out ++ [.leaked a.nextH]
    rw [seen_append, r.out, r.nextH]; rfl

/-! # The loop -/

theorem RVar.owns {s : St} {p : Loc} {x : Option (Kind × Option Val)} (r : RVar s p x) (h : Nat) : owns h x = true ↔ Held s p h := by
  have hpart : ∀ a : Part, a = .self ∨ a = .fd ∨ a = .timer := fun a => by cases a <;> simp
  match x with
  | none =>
    simp only [Spec.Event.owns, Bool.false_eq_true, false_iff]
    rintro ⟨a, e, h1, _⟩; rw [r.1] at h1; cases h1
  | some (.one c, none) =>
    obtain ⟨a1, a2, a3, e, a4, a5, a6⟩ := r
    simp only [Spec.Event.owns, Bool.false_eq_true, false_iff]
    rintro ⟨a, f, h1, h2⟩
    rcases hpart a with rfl | rfl | rfl
    · rw [a4] at h1; cases h1; rw [show e.ev = none from a6] at h2; cases h2
    · rw [a1] at h1; cases h1
    · rw [a2] at h1; cases h1
  | some (.one c, some v) =>
    obtain ⟨a1, a2, a3, e, a4, a5, i1, i2, _⟩ := r
    simp only [Spec.Event.owns, i1, Bool.or_eq_true, beq_iff_eq, reduceCtorEq, or_false]
    constructor
    · rintro rfl; exact ⟨.self, e, a4, i2⟩
    · rintro ⟨a, f, h1, h2⟩
      rcases hpart a with rfl | rfl | rfl
      · rw [a4] at h1; cases h1; rw [i2] at h2; cases h2; rfl
      · rw [a1] at h1; cases h1
      · rw [a2] at h1; cases h1
  | some (.timed, none) =>
    obtain ⟨a1, f, t, x, a2, a3, a4, a5, a6, a7, a8⟩ := r
    simp only [Spec.Event.owns, Bool.false_eq_true, false_iff]
    rintro ⟨a, g, h1, h2⟩
    rcases hpart a with rfl | rfl | rfl
    · rw [a1] at h1; cases h1
    · rw [a2] at h1; cases h1; rw [a7] at h2; cases h2
    · rw [a3] at h1; cases h1; rw [a8] at h2; cases h2
  | some (.timed, some v) =>
    obtain ⟨a1, f, t, x, a2, a3, a4, a5, a6, ht, i1, i2, i3, _⟩ := r
    simp only [Spec.Event.owns, i1, Bool.or_eq_true, beq_iff_eq, Option.some.injEq]
    constructor
    · rintro (rfl | rfl)
      · exact ⟨.fd, f, a2, i2⟩
      · exact ⟨.timer, t, a3, i3⟩
    · rintro ⟨a, g, h1, h2⟩
      rcases hpart a with rfl | rfl | rfl
      · rw [a1] at h1; cases h1
      · rw [a2] at h1; cases h1; rw [i2] at h2; cases h2; exact .inl rfl
      · rw [a3] at h1; cases h1; rw [i3] at h2; cases h2; exact .inr rfl

theorem R.holder_some {s : St} {a : Sp} (r : R s a) {h o : Nat} (hh : holder a h = some o) : Held s (.obj o) h :=
  ((r.var o).owns h).mp (by simpa using List.find?_some hh)

theorem R.holder_none {s : St} {a : Sp} (r : R s a) {h : Nat} (hh : holder a h = none) : (s.hd h).st ≠ .opened := fun ho => by
  obtain ⟨p, e, h1, h2⟩ := r.low.op h ho
  obtain ⟨l, pt⟩ := p
  cases l with
  | tmp k => rw [(r.tmp k).1] at h1; cases h1
  | obj o =>
    have hw := ((r.var o).owns h).mpr ⟨pt, e, h1, h2⟩
    have := List.find?_eq_none.mp hh o (r.names o (fun hn => by rw [hn] at hw; cases hw))
    exact this hw

/-- A callback is called. -/
theorem R.push {s : St} {a : Sp} (r : R s a) (l : Nat) (c : Option Nat) (h : 0 < a.ext l) : R { s with running := (l, c) :: s.running } { a with running := (l, c) :: a.running } :=
  have k := r.low
  ⟨⟨k.own, k.inj, k.op, k.live, k.nodup, k.lp, k.ext, fun x hx => (List.mem_cons.mp hx).elim (fun e => by rw [e]; show 0 < s.ext l; rw [r.ext]; exact h) (k.run x), k.fresh, k.freshL⟩,
    fun o => (r.var o).frame (fun _ => rfl) rfl (fun _ _ => rfl), fun j => (r.tmp j).frame (fun _ => rfl) rfl (fun _ _ => rfl), r.names, r.ext, by rw [r.running], r.nextH, r.nextL, r.out⟩

theorem R.fire {s : St} {a : Sp} (r : R s a) (h : Nat) : ∃ s' b, Event.fire s h = some s' ∧ Spec.Event.step a (.fire h) = some b ∧ R s' b := by
  have k := r.low
  simp only [Spec.Event.step]
  cases hh : holder a h with
  | none =>
    have := r.holder_none hh
    exact ⟨s, a, by rw [Event.fire, if_neg (by simp [this])], rfl, r⟩
  | some o =>
    have hd := r.holder_some hh
    have hw := ((r.var o).owns h).mpr hd
    have hv := r.var o
    match hx : a.var o with
    | none => rw [hx] at hw; cases hw
    | some (kd, none) => rw [hx] at hw; cases hw
    | some (.one c, some v) =>
      rw [hx] at hw hv
      obtain ⟨a1, a2, a3, e, a4, a5, i1, i2, i3, i4, i5, i6⟩ := hv
      have hv : h = v.h := by simp [owns, i1] at hw; exact hw.symm
      subst hv
      have ow := k.own _ _ _ a4 i2
      have hl : (s.hd v.h).loop = v.loop := by have := ow.2.1; rw [i3] at this; simpa using this.symm
      simp only [hx, happen]
      by_cases h0 : a.ext v.loop = 0
      · exact ⟨s, a, by rw [Event.fire, if_neg (by simp [hl, r.ext, h0])], by rw [if_pos h0], r⟩
      · rw [if_neg h0]
        cases hon : v.on with
        | false => exact ⟨s, a, by rw [Event.fire, if_neg (by simp [i6.active, hon])], by simp, r⟩
        | true =>
          have th := i6.thn hon
          simp only [↓reduceIte]
          have c1 : ((s.hd v.h).active && (s.hd v.h).st == .opened && decide (0 < s.ext (s.hd v.h).loop)) = true := by
            simp [i6.active, hon, ow.1, hl, r.ext]; omega
          rw [Event.fire, if_pos c1]
          simp only [St.setHd, upd_self, i6.data, th.1]
          rw [thenPlain]
          simp only [a4]
          rw [if_neg (by rw [a5]; intro hc; rw [i5 hc.1] at hc; cases hc.2)]
          refine ⟨_, _, rfl, rfl, ?_⟩
          simp only [upd_self]
          rw [hl, i4]
          have hfd : (if e.cls = .fd then e.fd else none) = if c = .fd then some v.fd else none := by
            rw [a5]; split
            · rw [i5 ‹_›]
            · rfl
          rw [hfd]
          have p1 := post_setHd k (p := .obj o) (h := v.h) (x := { s.hd v.h with active := !(s.hd v.h).once }) rfl rfl ⟨.self, e, a4, i2⟩
          have p2 := p1.trans (post_say p1.low (fun r => r = .obj o) [.call v.h v.cb (if c = .fd then some v.fd else none)])
          simp only [or_self] at p2
          have rv : RVar (St.say (s.setHd v.h { s.hd v.h with active := !(s.hd v.h).once }) [.call v.h v.cb (if c = .fd then some v.fd else none)]) (.obj o) (some (.one c, some { v with on := !v.once })) :=
            by
              refine RVar.say ?_ _
              exact ⟨a1, a2, a3, e, a4, a5, i1, i2, i3, i4, i5, by simp [St.setHd, i6.data], by simp [St.setHd, th.2], by simp [St.setHd, th.1, th.2]⟩
          have fin := (r.post1 p2 rv (b := (a.set o (some (.one c, some { v with on := !v.once }))).say [.call v.h v.cb (if c = .fd then some v.fd else none)]) rfl (.inl rfl) (.inl (by rw [hx]; simp)) rfl rfl rfl rfl rfl).push v.loop v.cb
            (Nat.pos_of_ne_zero h0)
          simp only [St.say, St.setHd, i6.data, th.1, hl] at fin ⊢
          exact fin
    | some (.timed, some v) =>
      rw [hx] at hw hv
      obtain ⟨a1, f, t, x, a2, a3, a4, a5, a6, ht, i1, i2, i3, i4, i5, i6, i7, i8, i9, i10⟩ := hv
      have ow1 := k.own _ _ _ a2 i2
      have ow2 := k.own _ _ _ a3 i3
      have hl1 : (s.hd v.h).loop = v.loop := by have := ow1.2.1; rw [i4] at this; simpa using this.symm
      have hl2 : (s.hd ht).loop = v.loop := by have := ow2.2.1; rw [i5] at this; simpa using this.symm
      have hne := TmOk.ne k a2 a3 i2 i3
      have hor : h = v.h ∨ h = ht := by simp [owns, i1] at hw; grind
      have hl : (s.hd h).loop = v.loop := by rcases hor with rfl | rfl <;> assumption
      simp only [hx, happen]
      by_cases h0 : a.ext v.loop = 0
      · exact ⟨s, a, by rw [Event.fire, if_neg (by simp [hl, r.ext, h0])], by rw [if_pos h0], r⟩
      · rw [if_neg h0]
        by_cases hh : h = v.h
        · subst hh
          rw [if_pos rfl]
          cases hon : v.on with
          | false => exact ⟨s, a, by rw [Event.fire, if_neg (by simp [i9.active, hon])], by simp, r⟩
          | true =>
            have th := i9.thn hon
            simp only [↓reduceIte]
            have c1 : ((s.hd v.h).active && (s.hd v.h).st == .opened && decide (0 < s.ext (s.hd v.h).loop)) = true := by
              simp [i9.active, hon, ow1.1, hl, r.ext]; omega
            rw [Event.fire, if_pos c1]
            simp only [St.setHd, upd_self, i9.data, th.1]
            simp only [thenTimedFd, a4, a2, a3, i3, i8 (.inl hon), i7, uvStop, St.setHd, upd_ne _ _ hne.symm, if_pos ow2.1, Option.bind_some, uvStart, upd_self, Option.map_some]
            refine ⟨_, _, rfl, rfl, ?_⟩
            simp only [upd_self, upd_ne _ _ hne]
            rw [hl, i6, i1]
            simp only [St.say]
            let s1 : St := { s with
              hd := upd (upd (upd s.hd v.h { s.hd v.h with active := !(s.hd v.h).once }) ht { s.hd ht with active := false }) ht
                { s.hd ht with active := true, once := true, thn := .timedTimer, ms := v.ms }
              out := s.out ++ [.timer ht v.ms, .call v.h v.cb (some v.fd)] }
            have p1 : Post s s1 (fun r => r = .obj o) [.timer ht v.ms, .call v.h v.cb (some v.fd)] := by
              refine post_any k ?_ (fun r hr => ⟨fun _ => rfl, rfl⟩) (fun y hy => ?_) rfl rfl rfl rfl (by simp only [s1, seen_append]; rfl)
              · refine k.data (fun y => ?_) rfl rfl rfl rfl rfl rfl rfl
                simp only [s1, upd_apply]
                by_cases e1 : y = v.h
                · subst e1; simp [hne]
                · by_cases e2 : y = ht
                  · subst e2; simp
                  · simp [e1, e2]
              · by_cases e1 : y = v.h
                · subst e1; exact .inr ⟨_, rfl, .fd, f, a2, i2⟩
                · by_cases e2 : y = ht
                  · subst e2; exact .inr ⟨_, rfl, .timer, t, a3, i3⟩
                  · exact .inl (by simp [s1, upd_apply, e1, e2])
            have rv : RVar s1 (.obj o) (some (.timed, some { v with ton := true })) := by
              refine ⟨a1, f, t, x, a2, a3, a4, a5, a6, ht, i1, i2, i3, i4, i5, i6, i7, fun _ => i8 (.inl hon), ⟨?_, ?_, ?_⟩, ⟨?_, ?_, ?_⟩⟩ <;>
                simp [s1, upd_apply, hne, i9.data, i10.data, th.1, th.2, hon]
            have fin := (r.post1 p1 rv (b := (a.set o (some (.timed, some { v with ton := true }))).say ((some ht).toList.map (.timer · v.ms) ++ [.call v.h v.cb (some v.fd)])) rfl (.inl rfl) (.inl (by rw [hx]; simp)) rfl rfl rfl rfl rfl).push v.loop v.cb
              (Nat.pos_of_ne_zero h0)
            simp only [St.say, St.setHd, s1, i9.data, th.1, hl1, i1, hon] at fin ⊢
            exact fin
        · rw [if_neg hh]
          have hh := hor.resolve_left hh
          subst hh
          cases hon : v.ton with
          | false => exact ⟨s, a, by rw [Event.fire, if_neg (by simp [i10.active, hon])], by simp, r⟩
          | true =>
            have th := i10.thn hon
            simp only [↓reduceIte]
            have c1 : ((s.hd h).active && (s.hd h).st == .opened && decide (0 < s.ext (s.hd h).loop)) = true := by
              simp [i10.active, hon, ow2.1, hl, r.ext]; omega
            rw [Event.fire, if_pos c1]
            simp only [St.setHd, upd_self, i10.data, th.1]
            simp only [thenTimedTimer, a4, a2, i2, i7, uvStop, St.setHd, upd_ne _ _ hne, if_pos ow1.1, Option.map_some]
            refine ⟨_, _, rfl, rfl, ?_⟩
            simp only [upd_self, upd_ne _ _ hne.symm]
            rw [hl, i6]
            simp only [St.say]
            let s1 : St := { s with
              hd := upd (upd s.hd h { s.hd h with active := !(s.hd h).once }) v.h { s.hd v.h with active := false }
              out := s.out ++ [.call h v.cb (some v.fd)] }
            have p1 : Post s s1 (fun r => r = .obj o) [.call h v.cb (some v.fd)] := by
              refine post_any k ?_ (fun r hr => ⟨fun _ => rfl, rfl⟩) (fun y hy => ?_) rfl rfl rfl rfl (by simp only [s1, seen_append]; rfl)
              · refine k.data (fun y => ?_) rfl rfl rfl rfl rfl rfl rfl
                simp only [s1, upd_apply]
                by_cases e1 : y = v.h
                · subst e1; simp
                · by_cases e2 : y = h
                  · subst e2; simp [e1]
                  · simp [e1, e2]
              · by_cases e1 : y = v.h
                · subst e1; exact .inr ⟨_, rfl, .fd, f, a2, i2⟩
                · by_cases e2 : y = h
                  · subst e2; exact .inr ⟨_, rfl, .timer, t, a3, i3⟩
                  · exact .inl (by simp [s1, upd_apply, e1, e2])
            have rv : RVar s1 (.obj o) (some (.timed, some { v with on := false, ton := false })) := by
              refine ⟨a1, f, t, x, a2, a3, a4, a5, a6, h, i1, i2, i3, i4, i5, i6, i7, by simp, ⟨?_, ?_, ?_⟩, ⟨?_, ?_, ?_⟩⟩ <;>
                simp [s1, upd_apply, hne.symm, i9.data, i10.data, th.2]
            have fin := (r.post1 p1 rv (b := (a.set o (some (.timed, some { v with on := false, ton := false }))).say [.call h v.cb (some v.fd)]) rfl (.inl rfl) (.inl (by rw [hx]; simp)) rfl rfl rfl rfl rfl).push v.loop v.cb
              (Nat.pos_of_ne_zero h0)
            simp only [St.say, St.setHd, s1, i10.data, th.1, hl, i1, hon] at fin ⊢
            exact fin

/-! # Contexts -/

theorem R.ctx {s : St} {a : Sp} (r : R s a) :
    R { s with loops := upd s.loops s.nextL true, ext := upd s.ext s.nextL 1, nextL := s.nextL + 1 } { a with nextL := a.nextL + 1, ext := upd a.ext a.nextL 1 } := by
  have k := r.low
  refine ⟨⟨k.own, k.inj, k.op, k.live, k.nodup, fun p e l h1 h2 => ?_, fun l h => ?_, fun x hx => ?_, k.fresh, fun l h => ?_⟩, fun o => (r.var o).frame (fun _ => rfl) rfl (fun _ _ => rfl),
    fun j => (r.tmp j).frame (fun _ => rfl) rfl (fun _ _ => rfl), r.names, ?_, r.running, r.nextH, ?_, r.out⟩
  · dsimp only; rw [upd_apply]; split
    · rfl
    · exact k.lp p e l h1 h2
  · dsimp only at h ⊢; rw [upd_apply] at h ⊢; split
    · rfl
    · rw [if_neg ‹_›] at h; exact k.ext l h
  · dsimp only; rw [upd_apply]; split
    · omega
    · exact k.run x hx
  · dsimp only at h ⊢; rw [upd_ne _ _ (by omega)]; exact k.freshL l (by omega)
  · dsimp only; rw [r.ext, r.nextL]
  · dsimp only; rw [r.nextL]

theorem R.copyCtx {s : St} {a : Sp} (r : R s a) {l : Nat} (h : a.ext l ≠ 0) : R { s with ext := upd s.ext l (s.ext l + 1) } { a with ext := upd a.ext l (a.ext l + 1) } := by
  have k := r.low
  refine ⟨⟨k.own, k.inj, k.op, k.live, k.nodup, k.lp, fun l' h' => ?_, fun x hx => ?_, k.fresh, k.freshL⟩, fun o => (r.var o).frame (fun _ => rfl) rfl (fun _ _ => rfl),
    fun j => (r.tmp j).frame (fun _ => rfl) rfl (fun _ _ => rfl), r.names, ?_, r.running, r.nextH, r.nextL, r.out⟩
  · dsimp only at h' ⊢; rw [upd_apply] at h'; split at h'
    · subst_vars; exact k.ext _ (by rw [r.ext]; omega)
    · exact k.ext l' h'
  · dsimp only; rw [upd_apply]; split
    · omega
    · exact k.run x hx
  · dsimp only; rw [r.ext]

theorem R.dropCtx {s : St} {a : Sp} (r : R s a) {l : Nat} (h : ¬ (a.ext l = 0 ∨ (a.ext l = 1 ∧ a.running.any (·.1 == l)))) :
    ∃ s', release { s with ext := upd s.ext l (s.ext l - 1) } (some l) = some s' ∧ R s' { a with ext := upd a.ext l (a.ext l - 1) } := by
  have k := r.low
  have hr : ∀ x ∈ s.running, 0 < upd s.ext l (s.ext l - 1) x.1 := fun x hx => by
    have := k.run x hx
    rw [upd_apply]; split
    · rename_i e
      have h1 : a.ext l ≠ 1 := fun h1 => h (.inr ⟨h1, List.any_eq_true.mpr ⟨x, by rw [← r.running]; exact hx, by simp [e]⟩⟩)
      rw [e] at this
      rw [r.ext] at *; omega
    · exact this
  have k1 : Low { s with ext := upd s.ext l (s.ext l - 1) } := by
    refine ⟨k.own, k.inj, k.op, k.live, k.nodup, k.lp, fun l' h' => ?_, hr, k.fresh, k.freshL⟩
    dsimp only at h' ⊢; rw [upd_apply] at h'; split at h'
    · subst_vars; exact k.ext _ (by omega)
    · exact k.ext l' h'
  obtain ⟨s', h1, h2, h3, h4, h5⟩ := release_ok k1 (some l)
  refine ⟨s', h1, h2, fun o => ?_, fun j => ?_, r.names, ?_, ?_, ?_, ?_, ?_⟩
  · exact frame_of k1 h5 (fun a => by rw [h3]) (by rw [h4]) (fun h hh => by simp at hh) ((r.var o).frame (fun _ => rfl) rfl (fun _ _ => rfl))
  · exact frame_of k1 h5 (fun a => by rw [h3]) (by rw [h4]) (fun h hh => by simp at hh) ((r.tmp j).frame (fun _ => rfl) rfl (fun _ _ => rfl))
  · rw [h5.ext]; dsimp only; rw [r.ext]
  · rw [h5.running]; exact r.running
  · rw [h5.nextH]; exact r.nextH
  · rw [h5.nextL]; exact r.nextL
  · rw [h5.out]; simp [r.out]

theorem R.done {s : St} {a : Sp} (r : R s a) : R { s with running := s.running.tail } { a with running := a.running.tail } := by
  have k := r.low
  exact ⟨⟨k.own, k.inj, k.op, k.live, k.nodup, k.lp, k.ext, fun x hx => k.run x (List.mem_of_mem_tail hx), k.fresh, k.freshL⟩, fun o => (r.var o).frame (fun _ => rfl) rfl (fun _ _ => rfl),
    fun j => (r.tmp j).frame (fun _ => rfl) rfl (fun _ _ => rfl), r.names, r.ext, by dsimp only; rw [r.running], r.nextH, r.nextL, r.out⟩

theorem R.closeCb {s : St} {a : Sp} (r : R s a) (h : Nat) : R (Event.closeCb s h) a := by
  have k := r.low
  rw [Event.closeCb]
  split
  · rename_i hc
    have hu : ∀ y, y ≠ h → ((s.setHd h { s.hd h with st := .freed }).say [.freed h]).hd y = s.hd y := fun y hy => by simp [St.setHd, St.say, upd_ne _ _ hy]
    have hn : ∀ p e y, s.ev p = some e → e.ev = some y → y ≠ h := fun p e y h1 h2 h3 => by
      have := (k.own p e y h1 h2).1; rw [h3, hc] at this; cases this
    have fr : ∀ p x, RVar s p x → RVar ((s.setHd h { s.hd h with st := .freed }).say [.freed h]) p x := fun p x rv => rv.frame (fun _ => rfl) rfl (fun y hy => by
      obtain ⟨b, e, h1, h2⟩ := hy
      exact hu y (hn _ _ _ h1 h2))
    refine ⟨⟨fun p e y h1 h2 => ?_, k.inj, fun y hy => ?_, k.live, k.nodup, k.lp, k.ext, k.run, fun y hy => ?_, k.freshL⟩, fun o => fr _ _ (r.var o), fun j => fr _ _ (r.tmp j), r.names, r.ext, r.running, r.nextH, r.nextL, ?_⟩
    · rw [hu y (hn _ _ _ h1 h2)]; exact k.own p e y h1 h2
    · by_cases e : y = h
      · subst e; simp [St.say, St.setHd] at hy
      · rw [hu y e] at hy; exact k.op y hy
    · rw [hu y (fun e => by have := k.fresh y hy; rw [e, hc] at this; cases this)]; exact k.fresh y hy
    · simp only [St.say, St.setHd, seen_append, r.out]; simp [seen]
  · exact r

/-! # Every step -/

theorem upd_comm {α β : Type} [DecidableEq α] (f : α → β) {a b : α} (x y : β) (h : a ≠ b) : upd (upd f a x) b y = upd (upd f b y) a x := by
  funext z; simp only [upd_apply]
  by_cases h1 : z = a
  · subst h1; simp [h]
  · simp [h1]

theorem upd_upd {α β : Type} [DecidableEq α] (f : α → β) (a : α) (x y : β) : upd (upd f a x) a y = upd f a y := by
  funext z; simp only [upd_apply]; split <;> rfl

theorem R.step {s : St} {a b : Sp} (r : R s a) (op : Op) (h : Spec.Event.step a op = some b) : ∃ s', step s op = some s' ∧ R s' b := by
  have k := r.low
  match op, h with
  | .ctx, h => cases h; exact ⟨_, rfl, r.ctx⟩
  | .copyCtx l, h =>
    simp only [Spec.Event.step] at h; split at h
    · cases h
    · cases h; exact ⟨_, rfl, r.copyCtx ‹_›⟩
  | .dropCtx l, h =>
    simp only [Spec.Event.step] at h; split at h
    · cases h
    · cases h; exact r.dropCtx ‹_›
  | .empty o kd, h =>
    simp only [Spec.Event.step] at h; split at h
    · cases h
    · rename_i hn
      have hn : a.var o = none := by simpa using hn
      have hv := r.var o; rw [hn] at hv
      cases h
      cases kd with
      | one c => exact ⟨_, rfl, r.post1 (one_empty k c hv).1 (one_empty k c hv).2 rfl (.inr rfl) (.inr (.inr rfl)) rfl rfl rfl rfl (by simp [Sp.set])⟩
      | timed => exact ⟨_, rfl, r.post1 (timed_empty k hv).1 (timed_empty k hv).2 rfl (.inr rfl) (.inr (.inr rfl)) rfl rfl rfl rfl (by simp [Sp.set])⟩
  | .new o kd l cb fd ok, h =>
    simp only [Spec.Event.step] at h; split at h
    · cases h
    · rename_i hn
      obtain ⟨hn, hl⟩ := not_or.mp hn
      have hn : a.var o = none := by simpa using hn
      cases ok with
      | false => cases h; cases kd <;> exact ⟨_, rfl, r.leak l⟩
      | true =>
        simp only [if_true] at h; cases h
        cases kd with
        | one c => exact r.new_one c cb fd hn hl rfl rfl rfl rfl rfl rfl rfl
        | timed => exact r.new_timed cb fd hn hl rfl rfl rfl rfl rfl rfl rfl
  | .move o p kd, h =>
    simp only [Spec.Event.step] at h
    split at h
    · rename_i k' v ho hp
      split at h
      · subst_vars
        have h1 := r.var o; have h2 := r.var p
        rw [ho] at h1; rw [hp] at h2
        cases h
        cases k' with
        | one c =>
          obtain ⟨s', g1, g2, g3, g4⟩ := one_move k h2 h1
          exact ⟨s', g1, r.post2 g2 g3 g4 rfl (.inr rfl) (.inr rfl) (by rw [hp]; simp) rfl rfl rfl rfl (by simp [Sp.set])⟩
        | timed =>
          obtain ⟨s', g1, g2, g3, g4⟩ := timed_move k h2 h1
          exact ⟨s', g1, r.post2 g2 g3 g4 rfl (.inr rfl) (.inr rfl) (by rw [hp]; simp) rfl rfl rfl rfl (by simp [Sp.set])⟩
      · cases h
    · cases h
  | .assign o p kd, h =>
    simp only [Spec.Event.step] at h
    split at h
    · rename_i k1 v1 k2 v2 ho hp
      split at h
      · rename_i hk; obtain ⟨rfl, rfl⟩ := hk
        have h1 := r.var o; have h2 := r.var p
        rw [ho] at h1; rw [hp] at h2
        split at h
        · subst_vars; cases h
          cases k2 with
          | one c => exact ⟨s, if_pos rfl, r⟩
          | timed => exact ⟨s, if_pos rfl, r⟩
        · rename_i hne
          cases h
          cases k2 with
          | one c =>
            obtain ⟨s', g1, g2, g3, g4⟩ := one_assign k (r.tmp 0) h1 h2 (by simpa using hne)
            exact ⟨s', g1, r.post2 g2 g3 g4 rfl (.inl rfl) (.inl (by rw [ho]; simp)) (by rw [hp]; simp) rfl rfl rfl rfl rfl⟩
          | timed =>
            obtain ⟨s', g1, g2, g3, g4⟩ := timed_assign k (r.tmp 0) (r.tmp 1) (r.tmp 2) h1 h2 (by simpa using hne)
            exact ⟨s', g1, r.post2 g2 g3 g4 rfl (.inl rfl) (.inl (by rw [ho]; simp)) (by rw [hp]; simp) rfl rfl rfl rfl rfl⟩
      · cases h
    · cases h
  | .swap o p kd, h =>
    simp only [Spec.Event.step] at h
    split at h
    · rename_i k1 v1 k2 v2 ho hp
      split at h
      · rename_i hk; obtain ⟨rfl, rfl⟩ := hk
        have h1 := r.var o; have h2 := r.var p
        rw [ho] at h1; rw [hp] at h2
        cases h
        by_cases hne : o = p
        · subst hne
          rw [ho] at hp; cases hp
          cases k2 with
          | one c =>
            obtain ⟨s', g1, g2, g3⟩ := one_swap_self k h1
            exact ⟨s', g1, r.post1 g2 g3 (upd_upd _ _ _ _) (.inl rfl) (.inl (by rw [ho]; simp)) rfl rfl rfl rfl (by simp [Sp.set])⟩
          | timed =>
            obtain ⟨s', g1, g2, g3⟩ := timed_swap_self k (r.tmp 1) (r.tmp 2) h1
            exact ⟨s', g1, r.post1 g2 g3 (upd_upd _ _ _ _) (.inl rfl) (.inl (by rw [ho]; simp)) rfl rfl rfl rfl (by simp [Sp.set])⟩
        · cases k2 with
          | one c =>
            obtain ⟨s', g1, g2, g3, g4⟩ := one_swap k h1 h2 (by simpa using hne)
            exact ⟨s', g1, r.post2 g2 g3 g4 rfl (.inl rfl) (.inl (by rw [ho]; simp)) (by rw [hp]; simp) rfl rfl rfl rfl (by simp [Sp.set])⟩
          | timed =>
            obtain ⟨s', g1, g2, g3, g4⟩ := timed_swap k (r.tmp 1) (r.tmp 2) h1 h2 (by simpa using hne)
            exact ⟨s', g1, r.post2 g2 g3 g4 rfl (.inl rfl) (.inl (by rw [ho]; simp)) (by rw [hp]; simp) rfl rfl rfl rfl (by simp [Sp.set])⟩
      · cases h
    · cases h
  | .clear o kd, h =>
    simp only [Spec.Event.step] at h
    split at h
    · rename_i k1 v ho
      split at h
      · subst_vars; cases h
        have h1 := r.var o; rw [ho] at h1
        cases k1 with
        | one c =>
          obtain ⟨s', g1, g2, g3⟩ := one_clear k h1
          exact ⟨s', g1, r.post1 g2 g3 rfl (.inl rfl) (.inl (by rw [ho]; simp)) rfl rfl rfl rfl rfl⟩
        | timed =>
          obtain ⟨s', g1, g2, g3⟩ := timed_clear k h1
          exact ⟨s', g1, r.post1 g2 g3 rfl (.inl rfl) (.inl (by rw [ho]; simp)) rfl rfl rfl rfl rfl⟩
      · cases h
    · cases h
  | .destroy o kd, h =>
    simp only [Spec.Event.step] at h
    split at h
    · rename_i k1 v ho
      split at h
      · subst_vars; cases h
        have h1 := r.var o; rw [ho] at h1
        cases k1 with
        | one c =>
          obtain ⟨s', g1, g2, g3⟩ := one_dtor k h1
          exact ⟨s', g1, r.post1 g2 g3 rfl (.inl rfl) (.inl (by rw [ho]; simp)) rfl rfl rfl rfl rfl⟩
        | timed =>
          obtain ⟨s', g1, g2, g3⟩ := timed_dtor k h1
          exact ⟨s', g1, r.post1 g2 g3 rfl (.inl rfl) (.inl (by rw [ho]; simp)) rfl rfl rfl rfl rfl⟩
      · cases h
    · cases h
  | .setCb o kd n, h =>
    simp only [Spec.Event.step] at h
    split at h
    · rename_i k1 v ho
      split at h
      · subst_vars; cases h
        have h1 := r.var o; rw [ho] at h1
        cases k1 with
        | one c =>
          obtain ⟨s', g1, g2, g3⟩ := one_setCb k n h1
          exact ⟨s', g1, r.post1 g2 g3 rfl (.inl rfl) (.inl (by rw [ho]; simp)) rfl rfl rfl rfl (by simp [Sp.set])⟩
        | timed =>
          obtain ⟨s', g1, g2, g3⟩ := timed_setCb k n h1
          exact ⟨s', g1, r.post1 g2 g3 rfl (.inl rfl) (.inl (by rw [ho]; simp)) rfl rfl rfl rfl (by simp [Sp.set])⟩
      · cases h
    · cases h
  | .add o kd once ms, h =>
    simp only [Spec.Event.step] at h
    split at h
    · rename_i k1 v ho
      split at h
      · subst_vars
        have h1 := r.var o; rw [ho] at h1
        cases k1 with
        | timed =>
          cases h
          obtain ⟨s', g1, g2, g3⟩ := timed_add k ms h1
          exact ⟨s', g1, r.post1 g2 g3 rfl (.inl rfl) (.inl (by rw [ho]; simp)) rfl rfl rfl rfl rfl⟩
        | one c =>
          obtain ⟨s', g1, g2, g3⟩ := one_add k once ms h1
          cases c <;> cases h <;> exact ⟨s', g1, r.post1 g2 g3 rfl (.inl rfl) (.inl (by rw [ho]; simp)) rfl rfl rfl rfl (by simp [Sp.set, Sp.say])⟩
      · cases h
    · cases h
  | .del o kd, h =>
    simp only [Spec.Event.step] at h
    split at h
    · rename_i k1 v ho
      split at h
      · subst_vars; cases h
        have h1 := r.var o; rw [ho] at h1
        cases k1 with
        | one c =>
          obtain ⟨s', g1, g2, g3⟩ := one_del k h1
          exact ⟨s', g1, r.post1 g2 g3 rfl (.inl rfl) (.inl (by rw [ho]; simp)) rfl rfl rfl rfl (by simp [Sp.set])⟩
        | timed =>
          obtain ⟨s', g1, g2, g3⟩ := timed_del k h1
          exact ⟨s', g1, r.post1 g2 g3 rfl (.inl rfl) (.inl (by rw [ho]; simp)) rfl rfl rfl rfl (by simp [Sp.set])⟩
      · cases h
    · cases h
  | .fire n, h =>
    obtain ⟨s', b', h1, h2, h3⟩ := r.fire n
    rw [h] at h2; cases h2
    exact ⟨s', h1, h3⟩
  | .done, h => cases h; exact ⟨_, rfl, r.done⟩
  | .closeCb n, h => cases h; exact ⟨_, rfl, r.closeCb n⟩

theorem R.run {s : St} {a b : Sp} (r : R s a) (ops : List Op) (h : Spec.Event.run a ops = some b) : ∃ s', Event.run s ops = some s' ∧ R s' b := by
  induction ops generalizing s a with
  | nil => cases h; exact ⟨s, rfl, r⟩
  | cons x ops ih =>
    simp only [Spec.Event.run, Option.bind_eq_some_iff] at h
    obtain ⟨c, h1, h2⟩ := h
    obtain ⟨s1, g1, g2⟩ := r.step x h1
    obtain ⟨s2, i1, i2⟩ := ih g2 h2
    exact ⟨s2, by rw [Event.run, g1]; exact i1, i2⟩

end Event
end Salticidae
