import Verif.Lemmas.EventRun
/-!
Handles and loops are freed once.
-/
namespace Salticidae
namespace Event
open Spec.Event (seen Val Sp)

/-- Handles and loops, and what has been freed; a loop other than `x` is referred to. -/
structure Gx (s : St) (x : Option Nat) : Prop where
  fr : ∀ h, s.out.count (.freed h) = if (s.hd h).st = .freed then 1 else 0
  cl : ∀ h, s.out.count (.closed h) = if (s.hd h).st = .closing ∨ (s.hd h).st = .freed then 1 else 0
  raw : ∀ h, s.nextH ≤ h → (s.hd h).st = .raw
  lk : ∀ h, .leaked h ∈ s.out ↔ h < s.nextH ∧ (s.hd h).st = .raw
  lp : ∀ h, (s.hd h).st = .opened ∨ (s.hd h).st = .closing → s.loops (s.hd h).loop = true
  lf : ∀ l, s.out.count (.loopFreed l) = if l < s.nextL ∧ s.loops l = false then 1 else 0
  nl : ∀ l, s.nextL ≤ l → s.loops l = false
  rf : ∀ l, s.loops l = true → some l ≠ x → 0 < s.ext l ∨ ∃ p e, s.ev p = some e ∧ e.ec = some l

abbrev G (s : St) : Prop := Gx s none

/-- Outputs about freeing. -/
def quiet (l : List Out) : Prop := ∀ x ∈ l, match x with | .freed _ | .loopFreed _ | .leaked _ | .closed _ => False | _ => True

theorem quiet.freed {l : List Out} (q : quiet l) (h : Nat) : l.count (.freed h) = 0 := List.count_eq_zero.mpr (fun m => q _ m)
theorem quiet.closed {l : List Out} (q : quiet l) (h : Nat) : l.count (.closed h) = 0 := List.count_eq_zero.mpr (fun m => q _ m)
theorem quiet.loop {l : List Out} (q : quiet l) (h : Nat) : l.count (.loopFreed h) = 0 := List.count_eq_zero.mpr (fun m => q _ m)
theorem quiet.leaked {l : List Out} (q : quiet l) (h : Nat) : .leaked h ∉ l := fun m => q _ m
theorem quiet_indet (b : Bool) : quiet (indetIf b) := by cases b <;> simp [indetIf, quiet]
theorem quiet_dropped (c : Option Nat) : quiet (dropped c) := by cases c <;> simp [dropped, quiet]

/-- Nothing is closed or freed. -/
theorem Gx.keep {s s' : St} {x : Option Nat} (k : Gx s x) (o : List Out) (ho : quiet o) (h0 : s'.out = s.out ++ o)
    (h : ∀ h, (s'.hd h).loop = (s.hd h).loop ∧ (s'.hd h).st = (s.hd h).st) (h3 : s'.loops = s.loops)
    (h6 : s'.nextH = s.nextH) (h7 : s'.nextL = s.nextL) (h4 : ∀ l, 0 < s.ext l ∨ (∃ p e, s.ev p = some e ∧ e.ec = some l) → 0 < s'.ext l ∨ ∃ p e, s'.ev p = some e ∧ e.ec = some l) : Gx s' x := by
  constructor
  · intro y; rw [h0, List.count_append, ho.freed, k.fr, (h y).2]; rfl
  · intro y; rw [h0, List.count_append, ho.closed, k.cl, (h y).2]; rfl
  · intro y hy; rw [h6] at hy; rw [(h y).2, k.raw y hy]
  · intro y; rw [h0, List.mem_append, or_iff_left (ho.leaked y), k.lk y, h6, (h y).2]
  · intro y hy; rw [h3, (h y).1]; rw [(h y).2] at hy; exact k.lp y hy
  · intro l; rw [h0, List.count_append, ho.loop, k.lf, h3, h7]; rfl
  · intro l hl; rw [h3]; rw [h7] at hl; exact k.nl l hl
  · intro l hl hx; rw [h3] at hl; exact h4 l (k.rf l hl hx)

theorem count_map {α β : Type} [DecidableEq α] [DecidableEq β] (f : α → β) (hf : ∀ a b, f a = f b → a = b) (l : List α) (a : α) : (l.map f).count (f a) = l.count a := by
  induction l with
  | nil => rfl
  | cons x l ih =>
    simp only [List.map_cons, List.count_cons, ih]
    by_cases h : x = a
    · simp [h]
    · have : f x ≠ f a := fun e => h (hf _ _ e)
      simp [h, this]

theorem handlesOf_count (s : St) (l : Nat) (p : HSt → Bool) (h : Nat) : (handlesOf s l p).count h = if h < s.nextH ∧ (s.hd h).loop = l ∧ p (s.hd h).st = true then 1 else 0 := by
  have nd : (handlesOf s l p).Nodup := List.Nodup.sublist List.filter_sublist List.nodup_range
  rw [nd.count]
  simp [handlesOf]

theorem freeLoop_G {s s' : St} {l : Nat} (k : Gx s (some l)) (hl : s.loops l = true) (h : freeLoop s l = some s') : G s' := by
  rw [freeLoop] at h
  split at h
  · cases h
  · cases h
    have hne : l < s.nextL := by
      by_cases c : l < s.nextL
      · exact c
      · rw [k.nl l (by omega)] at hl; cases hl
    have q1 : ∀ y, ((handlesOf s l (· == .opened)).map Out.closed).count (.freed y) = 0 := fun y => List.count_eq_zero.mpr (by simp)
    have q2 : ∀ (L : List Nat) y, (L.map Out.freed).count (.freed y) = L.count y := fun L y => count_map Out.freed (fun a b h => by cases h; rfl) L y
    have q3 : ∀ y, ((handlesOf s l (fun x => x == .opened || x == .closing)).map Out.freed).count (.closed y) = 0 := fun y => List.count_eq_zero.mpr (by simp)
    have q4 : ∀ (L : List Nat) y, (L.map Out.closed).count (.closed y) = L.count y := fun L y => count_map Out.closed (fun a b h => by cases h; rfl) L y
    have hlt : ∀ y, (s.hd y).st ≠ .raw → y < s.nextH := fun y hy => by
      by_cases d : y < s.nextH
      · exact d
      · exact absurd (k.raw y (by omega)) hy
    constructor <;> simp only [St.say]
    · intro y
      rw [List.count_append, List.count_append, List.count_append, q1, q2, k.fr, handlesOf_count]
      simp only [Bool.or_eq_true, beq_iff_eq]
      by_cases c : (s.hd y).loop = l ∧ ((s.hd y).st = .opened ∨ (s.hd y).st = .closing)
      · have c' : y < s.nextH := by
          by_cases d : y < s.nextH
          · exact d
          · have := k.raw y (by omega); rcases c.2 with e | e <;> rw [this] at e <;> cases e
        have c2 : (s.hd y).st ≠ .freed := by rcases c.2 with e | e <;> rw [e] <;> simp
        simp [c, c', c2]
      · have c2 : ¬ (y < s.nextH ∧ (s.hd y).loop = l ∧ ((s.hd y).st = .opened ∨ (s.hd y).st = .closing)) := fun d => c d.2
        simp [c, c2]
    · intro y
      rw [List.count_append, List.count_append, List.count_append, q3, q4, k.cl, handlesOf_count]
      simp only [beq_iff_eq]
      by_cases c : (s.hd y).loop = l
      · rcases hs : (s.hd y).st <;> simp [c, hs]
        exact hlt y (by rw [hs]; simp)
      · simp [c]
    · intro y hy
      have := k.raw y hy
      rw [if_neg (by rw [this]; simp)]; exact this
    · intro y
      have m : Out.leaked y ∈ s.out ++ ((handlesOf s l (· == .opened)).map .closed ++ (handlesOf s l (fun x => x == .opened || x == .closing)).map .freed ++ [.loopFreed l]) ↔ .leaked y ∈ s.out := by simp
      rw [m, k.lk y]
      split
      · rename_i c; rcases c.2 with e | e <;> rw [e] <;> simp
      · rfl
    · intro y hy
      split at hy
      · simp at hy
      · rename_i c
        rw [if_neg c]
        rw [upd_ne _ _ (fun e => c ⟨e, hy⟩)]
        exact k.lp y hy
    · intro l'
      have z : ((handlesOf s l (· == .opened)).map Out.closed ++ (handlesOf s l (fun x => x == .opened || x == .closing)).map Out.freed).count (.loopFreed l') = 0 := List.count_eq_zero.mpr (by simp)
      rw [List.count_append, List.count_append, z, k.lf, upd_apply]
      by_cases c : l' = l
      · subst c; simp [hl, hne]
      · simp [c, Ne.symm c]
    · intro l' h'
      rw [upd_apply]; split
      · rfl
      · exact k.nl l' h'
    · intro l' h' _
      rw [upd_apply] at h'; split at h'
      · cases h'
      · exact k.rf l' h' (by simpa using ‹_›)

theorem release_G {s s' : St} {ec : Option Nat} (k : Gx s ec) (h : release s ec = some s') : G s' := by
  cases ec with
  | none => cases h; exact k
  | some l =>
    simp only [release] at h
    split at h
    · rename_i c
      simp only [Bool.and_eq_true] at c
      exact freeLoop_G k c.1 h
    · rename_i c
      cases h
      refine { k with rf := fun l' hl _ => ?_ }
      by_cases e : l' = l
      · subst e
        simp only [hl, Bool.true_and, noRef, Bool.and_eq_true, beq_iff_eq, List.all_eq_true, not_and, Classical.not_forall] at c
        by_cases e0 : s.ext l' = 0
        · obtain ⟨p, _, c2⟩ := c e0
          right
          split at c2
          · exact ⟨p, _, ‹_›, by simpa using c2⟩
          · exact absurd rfl c2
        · exact .inl (by omega)
      · exact k.rf l' hl (by simpa using e)

theorem setHd_keep {s : St} {h : Nat} {y : Hd} (h1 : y.st = (s.hd h).st) (h2 : y.loop = (s.hd h).loop) (z : Nat) :
    ((s.setHd h y).hd z).loop = (s.hd z).loop ∧ ((s.setHd h y).hd z).st = (s.hd z).st := (upd_hd_st h1 h2 z).symm

theorem setData_G {s s' : St} {x : Option Nat} {h : Nat} {p : Ptr} (k : Gx s x) (e : setData s h p = some s') : Gx s' x := by
  rw [setData] at e; split at e
  · cases e
  · cases e; exact k.keep [] (by simp [quiet]) (by simp [St.setHd]) (setHd_keep (y := { s.hd h with data := some p }) rfl rfl) rfl rfl rfl (fun _ h => h)

theorem setData?_G {s s' : St} {x : Option Nat} {h : Option Nat} {p : Ptr} (k : Gx s x) (e : setData? s h p = some s') : Gx s' x := by
  cases h with
  | none => cases e; exact k
  | some h => exact setData_G k e

theorem uvStop_G {s s' : St} {x : Option Nat} {h : Nat} (k : Gx s x) (e : uvStop s h = some s') : Gx s' x := by
  rw [uvStop] at e; split at e
  · cases e; exact k.keep [] (by simp [quiet]) (by simp [St.setHd]) (setHd_keep (y := { s.hd h with active := false }) rfl rfl) rfl rfl rfl (fun _ h => h)
  · cases e

theorem uvStart_G {s s' : St} {x : Option Nat} {h : Nat} {f : Then} {o : Bool} {ms : Nat} (k : Gx s x) (e : uvStart s h f o ms = some s') : Gx s' x := by
  rw [uvStart] at e; split at e
  · cases e; exact k.keep [] (by simp [quiet]) (by simp [St.setHd]) (setHd_keep (y := { s.hd h with active := true, thn := f, once := o, ms := ms }) rfl rfl) rfl rfl rfl (fun _ h => h)
  · cases e

theorem uvClose_G {s s' : St} {x : Option Nat} {h : Nat} (k : Gx s x) (e : uvClose s h = some s') : Gx s' x := by
  rw [uvClose] at e; split at e
  · rename_i ho
    cases e
    constructor <;> simp only [St.say, St.setHd]
    · intro y; rw [List.count_append, k.fr]
      by_cases c : y = h
      · subst c; simp [ho]
      · simp [upd_ne _ _ c]
    · intro y; rw [List.count_append, k.cl]
      by_cases c : y = h
      · subst c; simp [ho]
      · simp [upd_ne _ _ c, Ne.symm c]
    · intro y hy
      rw [upd_ne _ _ (fun e => by have := k.raw y hy; rw [e, ho] at this; cases this)]; exact k.raw y hy
    · intro y; rw [List.mem_append, k.lk]
      by_cases c : y = h
      · subst c; simp [ho]
      · simp [upd_ne _ _ c]
    · intro y
      by_cases c : y = h
      · subst c; simp [k.lp y (.inl ho)]
      · rw [upd_ne _ _ c]; exact k.lp y
    · intro l; rw [List.count_append, k.lf]; simp; rfl
    · exact k.nl
    · exact k.rf
  · cases e

theorem Gx.say {s : St} {x : Option Nat} (k : Gx s x) {o : List Out} (ho : quiet o) : Gx (s.say o) x := k.keep o ho rfl (fun _ => ⟨rfl, rfl⟩) rfl rfl rfl (fun _ h => h)

/-- Objects change, but the contexts they refer to do not. -/
theorem Gx.ev {s : St} {x : Option Nat} (k : Gx s x) (ev : Ptr → Option Ev) (tm : Loc → Option Tm) (live : List Ptr) (run : List (Nat × Option Nat)) {o : List Out} (ho : quiet o)
    (h : ∀ l p e, s.ev p = some e → e.ec = some l → ∃ p e, ev p = some e ∧ e.ec = some l) :
    Gx { s with ev := ev, tm := tm, live := live, running := run, out := s.out ++ o } x :=
  k.keep o ho rfl (fun _ => ⟨rfl, rfl⟩) rfl rfl rfl (fun l hh => hh.imp id (fun ⟨p, e, h1, h2⟩ => h l p e h1 h2))

theorem evEmpty_G {s : St} {x : Option Nat} {p : Ptr} {c : Cls} (k : Gx s x) (hp : s.ev p = none) : Gx (evEmpty s p c) x := by
  have := k.ev (upd s.ev p (some ⟨c, none, none, none, none⟩)) s.tm (p :: s.live) s.running (o := []) (by simp [quiet]) (fun l q e h1 h2 => ⟨q, e, by rw [upd_ne _ _ (fun e => by rw [e, hp] at h1; cases h1), h1], h2⟩)
  simpa [evEmpty, St.setEv] using this

theorem newHd_G {s : St} {x : Option Nat} {l : Nat} (k : Gx s x) (ok : Bool) (hl : s.loops l = true) : Gx (newHd s l ok) x := by
  have h0 := k.raw s.nextH (Nat.le_refl _)
  have f0 := k.fr s.nextH
  rw [h0] at f0
  cases ok with
  | true =>
    constructor <;> simp only [newHd, if_true, St.setHd]
    · intro y; rw [k.fr]
      by_cases c : y = s.nextH
      · subst c; simp [h0]
      · simp only [upd_ne _ _ c]
    · intro y; rw [k.cl]
      by_cases c : y = s.nextH
      · subst c; simp [h0]
      · simp only [upd_ne _ _ c]
    · intro y hy; rw [upd_ne _ _ (by omega)]; exact k.raw y (by omega)
    · intro y; rw [k.lk, upd_apply]; split
      · subst_vars; simp
      · have : y < s.nextH + 1 ↔ y < s.nextH := by omega
        rw [this]
    · intro y; rw [upd_apply]; split
      · intro _; exact hl
      · exact k.lp y
    · exact k.lf
    · exact k.nl
    · exact k.rf
  | false =>
    constructor <;> simp only [newHd, Bool.false_eq_true, if_false, St.setHd, St.say]
    · intro y
      rw [List.count_append, k.fr]
      by_cases c : y = s.nextH
      · subst c; simp [h0]
      · simp [upd_ne _ _ c]
    · intro y
      rw [List.count_append, k.cl]
      by_cases c : y = s.nextH
      · subst c; simp [h0]
      · simp [upd_ne _ _ c]
    · intro y hy; rw [upd_ne _ _ (by omega)]; exact k.raw y (by omega)
    · intro y; rw [List.mem_append, k.lk, upd_apply]; split
      · subst_vars; simp
      · have : y < s.nextH + 1 ↔ y < s.nextH := by omega
        rw [this]; simp [‹¬ _›]
    · intro y; rw [upd_apply]; split
      · intro _; exact hl
      · exact k.lp y
    · intro l'; rw [List.count_append, k.lf]; simp
    · exact k.nl
    · exact k.rf

theorem evNew_G {s s' : St} {p : Ptr} {c : Cls} {l : Nat} {cb : Option Nat} {fd : Nat} (k : G s) (h : evNew s p c l cb fd = some s') : G s' := by
  simp only [evNew] at h
  split at h
  · cases h
  · rename_i c'
    obtain ⟨c1, c2⟩ := not_or.mp c'
    have c1 : s.loops l = true := by simpa using c1
    have c2 : s.ev p = none := by simpa using c2
    have k1 := newHd_G k true c1
    have k2 := k1.ev (upd s.ev p (some ⟨c, some l, if c = .fd then some fd else none, some s.nextH, cb⟩)) s.tm (p :: s.live) s.running (o := []) (by simp [quiet])
      (fun l q e h1 h2 => ⟨q, e, by rw [upd_ne _ _ (fun e => by rw [e] at h1; simp [newHd, St.setHd, c2] at h1)]; exact h1, h2⟩)
    refine setData_G ?_ h
    rw [List.append_nil] at k2
    exact k2

theorem evMove_G {s s' : St} {x : Option Nat} {p q : Ptr} (k : Gx s x) (h : evMove s p q = some s') : Gx s' x := by
  simp only [evMove] at h
  split at h
  · cases h
  · rename_i e he
    split at h
    · cases h
    · rename_i hp
      have hp : s.ev p = none := by simpa using hp
      have hne : p ≠ q := fun h => by rw [h, he] at hp; cases hp
      refine setData?_G ?_ h
      refine k.ev _ s.tm _ s.running (quiet_indet _) (fun l r f h1 h2 => ?_)
      by_cases hr : r = q
      · subst hr; rw [he] at h1; cases h1
        exact ⟨p, e, by simp only [St.setEv]; rw [upd_ne _ _ hne, upd_self], h2⟩
      · refine ⟨r, f, ?_, h2⟩
        simp only [St.setEv]; rw [upd_ne _ _ hr, upd_ne _ _ (fun h => by rw [h, hp] at h1; cases h1), h1]

theorem evSwap_G {s s' : St} {x : Option Nat} {p q : Ptr} (k : Gx s x) (h : evSwap s p q = some s') : Gx s' x := by
  simp only [evSwap] at h
  split at h
  · rename_i a b ha hb
    rw [Option.bind_eq_some_iff] at h
    obtain ⟨s1, h1, h2⟩ := h
    refine setData?_G (setData?_G ?_ h1) h2
    refine k.ev _ s.tm s.live s.running (quiet_indet _) (fun l r f g1 g2 => ?_)
    by_cases hr : r = p
    · subst hr; rw [ha] at g1; cases g1
      exact ⟨q, a, by simp only [St.setEv]; rw [upd_self], g2⟩
    · by_cases hr' : r = q
      · subst hr'; rw [hb] at g1; cases g1
        exact ⟨p, b, by simp only [St.setEv]; rw [upd_ne _ _ (Ne.symm hr), upd_self], g2⟩
      · exact ⟨r, f, by simp only [St.setEv]; rw [upd_ne _ _ hr', upd_ne _ _ hr, g1], g2⟩
  · cases h

/-- An object is replaced by one with the same context. -/
theorem Gx.same {s : St} {x : Option Nat} (k : Gx s x) {p : Ptr} {e f : Ev} (he : s.ev p = some e) (hf : f.ec = e.ec) {o : List Out} (ho : quiet o) : Gx ((s.setEv p f).say o) x := by
  refine k.ev _ s.tm s.live s.running ho (fun l r g h1 h2 => ?_)
  by_cases hr : r = p
  · subst hr; rw [he] at h1; cases h1
    exact ⟨r, f, by simp only [St.setEv]; rw [upd_self], hf.trans h2⟩
  · exact ⟨r, g, by simp only [St.setEv]; rw [upd_ne _ _ hr, h1], h2⟩

theorem uvStop_ev {s s' : St} {h : Nat} (e : uvStop s h = some s') : s'.ev = s.ev := by
  rw [uvStop] at e; split at e <;> cases e; rfl
theorem uvClose_ev {s s' : St} {h : Nat} (e : uvClose s h = some s') : s'.ev = s.ev := by
  rw [uvClose] at e; split at e <;> cases e; rfl

theorem evClear_G {s s' : St} {x : Option Nat} {p : Ptr} (k : Gx s x) (h : evClear s p = some s') : Gx s' x ∧ ∃ e f, s.ev p = some e ∧ f.ec = e.ec ∧ s'.ev = upd s.ev p (some f) := by
  simp only [evClear] at h
  split at h
  · cases h
  · rename_i e he
    rw [Option.map_eq_some_iff] at h
    obtain ⟨s1, h1, rfl⟩ := h
    split at h1
    · rw [Option.bind_eq_some_iff] at h1
      obtain ⟨s2, h2, h3⟩ := h1
      have hev : s1.ev = s.ev := (uvClose_ev h3).trans (uvStop_ev h2)
      refine ⟨(uvClose_G (uvStop_G k h2) h3).same (e := e) (f := { e with ev := none, cb := none }) (by rw [hev, he]) rfl (quiet_dropped _), e, { e with ev := none, cb := none }, he, rfl, ?_⟩
      simp only [St.say, St.setEv, hev]
    · cases h1
      exact ⟨k.same (f := { e with ev := none, cb := none }) he rfl (quiet_dropped _), e, { e with ev := none, cb := none }, he, rfl, rfl⟩

theorem evDtor_G {s s' : St} {p : Ptr} (k : G s) (h : evDtor s p = some s') : G s' := by
  simp only [evDtor, Option.bind_eq_some_iff] at h
  obtain ⟨s1, h1, h2⟩ := h
  split at h2
  · cases h2
  · rename_i e he
    refine release_G ?_ h2
    have k1 := (evClear_G k h1).1
    refine { k1 with rf := fun l hl hx => ?_ }
    rcases k1.rf l hl (by simp) with c | ⟨q, f, c1, c2⟩
    · exact .inl c
    · refine .inr ⟨q, f, ?_, c2⟩
      dsimp only
      rw [upd_ne _ _ (fun hq => ?_), c1]
      rw [hq, he] at c1; cases c1
      exact hx c2.symm

theorem evAssign_G {s s' : St} {t p q : Ptr} (k : G s) (h : evAssign t s p q = some s') : G s' := by
  rw [evAssign] at h; split at h
  · cases h; exact k
  · simp only [Option.bind_eq_some_iff] at h
    obtain ⟨s1, h1, s2, h2, h3⟩ := h
    exact evDtor_G (evSwap_G (evMove_G k h1) h2) h3

theorem stdSwap_G {s s' : St} {t t' p q : Ptr} (k : G s) (h : stdSwap t t' s p q = some s') : G s' := by
  simp only [stdSwap, Option.bind_eq_some_iff] at h
  obtain ⟨s1, h1, s2, h2, s3, h3, h4⟩ := h
  exact evDtor_G (evAssign_G (evAssign_G (evMove_G k h1) h2) h3) h4

theorem evSetCb_G {s s' : St} {p : Ptr} {c : Nat} (k : G s) (h : evSetCb s p c = some s') : G s' := by
  rw [evSetCb] at h; split at h
  · cases h
  · rename_i e he; cases h; exact k.same (f := { e with cb := some c }) he rfl (quiet_dropped _)

theorem evAdd_G {s s' : St} {p : Ptr} {o : Bool} {ms : Nat} (k : G s) (h : evAdd s p o ms = some s') : G s' := by
  rw [evAdd] at h; split at h
  · split at h
    · split at h
      · rw [Option.map_eq_some_iff] at h
        obtain ⟨s1, h1, rfl⟩ := h
        exact (uvStart_G k h1).say (by simp [quiet])
      · exact uvStart_G k h
      · exact uvStart_G k h
    · cases h
  · cases h

theorem evDel_G {s s' : St} {p : Ptr} (k : G s) (h : evDel s p = some s') : G s' := by
  rw [evDel] at h; split at h
  · split at h
    · exact uvStop_G k h
    · cases h; exact k
  · cases h

theorem Gx.tm {s : St} {x : Option Nat} (k : Gx s x) (tm : Loc → Option Tm) {o : List Out} (ho : quiet o) : Gx { s with tm := tm, out := s.out ++ o } x :=
  k.ev s.ev tm s.live s.running ho (fun _ p e h1 h2 => ⟨p, e, h1, h2⟩)
theorem Gx.tm' {s : St} {x : Option Nat} (k : Gx s x) (tm : Loc → Option Tm) : Gx { s with tm := tm } x := by
  have := k.tm tm (o := []) (by simp [quiet]); rw [List.append_nil] at this; exact this

theorem tData_G {s s' : St} {p : Loc} (k : G s) (h : tData s p = some s') : G s' := by
  rw [tData] at h; split at h
  · split at h
    · rw [Option.bind_eq_some_iff] at h
      obtain ⟨s1, h1, h2⟩ := h
      exact setData_G (setData_G k h1) h2
    · cases h
    · cases h; exact k
  · cases h

theorem tNew_G {s s' : St} {p : Loc} {l : Nat} {cb : Option Nat} {fd : Nat} (k : G s) (h : tNew s p l cb fd = some s') : G s' := by
  simp only [tNew, Option.bind_eq_some_iff] at h
  obtain ⟨s1, h1, s2, h2, h3⟩ := h
  exact tData_G ((evNew_G (evNew_G k h1) h2).tm' _) h3

theorem tMove_G {s s' : St} {p q : Loc} (k : G s) (h : tMove s p q = some s') : G s' := by
  simp only [tMove, Option.bind_eq_some_iff] at h
  obtain ⟨s1, h1, s2, h2, h3⟩ := h
  split at h3
  · cases h3
  · exact tData_G ((evMove_G (evMove_G k h1) h2).tm _ (quiet_indet _)) h3

theorem tSwap_G {s s' : St} {p q : Loc} (k : G s) (h : tSwap s p q = some s') : G s' := by
  simp only [tSwap, Option.bind_eq_some_iff] at h
  obtain ⟨s1, h1, s2, h2, h3⟩ := h
  split at h3
  · rw [Option.bind_eq_some_iff] at h3
    obtain ⟨s3, h4, h5⟩ := h3
    exact tData_G (tData_G ((stdSwap_G (stdSwap_G k h1) h2).tm _ (quiet_indet _)) h4) h5
  · cases h3

theorem tClear_G {s s' : St} {p : Loc} (k : G s) (h : tClear s p = some s') : G s' := by
  simp only [tClear, Option.bind_eq_some_iff] at h
  obtain ⟨s1, h1, s2, h2, h3⟩ := h
  split at h3
  · cases h3
  · cases h3; exact (evClear_G (evClear_G k h1).1 h2).1.tm _ (quiet_dropped _)

theorem tDtor_G {s s' : St} {p : Loc} (k : G s) (h : tDtor s p = some s') : G s' := by
  simp only [tDtor, Option.bind_eq_some_iff] at h
  obtain ⟨s1, h1, s2, h2, h3⟩ := h
  exact evDtor_G (evDtor_G ((tClear_G k h1).tm' _) h2) h3

theorem tAssign_G {s s' : St} {p q : Loc} (k : G s) (h : tAssign s p q = some s') : G s' := by
  rw [tAssign] at h; split at h
  · cases h; exact k
  · simp only [Option.bind_eq_some_iff] at h
    obtain ⟨s1, h1, s2, h2, h3⟩ := h
    exact tDtor_G (tSwap_G (tMove_G k h1) h2) h3

theorem tSetCb_G {s s' : St} {p : Loc} {c : Nat} (k : G s) (h : tSetCb s p c = some s') : G s' := by
  rw [tSetCb] at h; split at h
  · cases h
  · cases h; exact k.tm _ (quiet_dropped _)

theorem tAdd_G {s s' : St} {p : Loc} {ms : Nat} (k : G s) (h : tAdd s p ms = some s') : G s' := by
  rw [tAdd] at h; split at h
  · split at h
    · rw [Option.bind_eq_some_iff] at h
      obtain ⟨s1, h1, h2⟩ := h
      exact uvStart_G ((uvStart_G (k.tm' _) h1).say (by simp [quiet])) h2
    · cases h
  · cases h

theorem tDel_G {s s' : St} {p : Loc} (k : G s) (h : tDel s p = some s') : G s' := by
  simp only [tDel, Option.bind_eq_some_iff] at h
  obtain ⟨s1, h1, h2⟩ := h
  exact evDel_G (evDel_G k h1) h2

theorem Gx.run {s : St} {x : Option Nat} (k : Gx s x) (run : List (Nat × Option Nat)) {o : List Out} (ho : quiet o) : Gx (St.say { s with running := run } o) x :=
  k.ev s.ev s.tm s.live run ho (fun _ p e h1 h2 => ⟨p, e, h1, h2⟩)

theorem fire_G {s s' : St} {h : Nat} (k : G s) (e : fire s h = some s') : G s' := by
  rw [fire] at e; split at e
  · have k1 : G (s.setHd h { s.hd h with active := !(s.hd h).once }) :=
      k.keep [] (by simp [quiet]) (by simp [St.setHd]) (setHd_keep (y := { s.hd h with active := !(s.hd h).once }) rfl rfl) rfl rfl rfl (fun _ h => h)
    dsimp only at e
    split at e
    · split at e
      · rw [thenPlain] at e; split at e
        · split at e
          · cases e
          · cases e; exact k1.run _ (by simp [quiet])
        · cases e
      · rw [thenTimedFd] at e; split at e
        · split at e
          · rw [Option.bind_eq_some_iff] at e
            obtain ⟨s1, h1, h2⟩ := e
            rw [Option.map_eq_some_iff] at h2
            obtain ⟨s2, h2, rfl⟩ := h2
            exact (uvStart_G (uvStop_G k1 h1) h2).run _ (by simp [quiet])
          · cases e
        · cases e
      · rw [thenTimedTimer] at e; split at e
        · split at e
          · rw [Option.map_eq_some_iff] at e
            obtain ⟨s2, h2, rfl⟩ := e
            exact (uvStop_G k1 h2).run _ (by simp [quiet])
          · cases e; exact k1.run _ (by simp [quiet])
          · cases e
        · cases e
    · cases e
  · cases e; exact k

theorem closeCb_G {s : St} {h : Nat} (k : G s) : G (closeCb s h) := by
  rw [closeCb]; split
  · rename_i hc
    have hn : h < s.nextH := by
      by_cases d : h < s.nextH
      · exact d
      · have := k.raw h (by omega); rw [this] at hc; cases hc
    constructor <;> simp only [St.say, St.setHd]
    · intro y; rw [List.count_append, k.fr]
      by_cases c : y = h
      · subst c; simp [hc]
      · simp [upd_ne _ _ c, Ne.symm c]
    · intro y; rw [List.count_append, k.cl]
      by_cases c : y = h
      · subst c; simp [hc]
      · simp [upd_ne _ _ c]
    · intro y hy; rw [upd_ne _ _ (by omega)]; exact k.raw y hy
    · intro y
      rw [List.mem_append, k.lk, upd_apply]
      by_cases c : y = h
      · subst c; simp [hc]
      · simp [c]
    · intro y; rw [upd_apply]; split
      · intro c; simp at c
      · exact k.lp y
    · intro l; rw [List.count_append, k.lf]; simp; rfl
    · exact k.nl
    · exact k.rf
  · exact k

theorem R.step_G {s s' : St} {a b : Sp} (r : R s a) (op : Op) (k : G s) (hb : Spec.Event.step a op = some b) (h : Event.step s op = some s') : G s' := by
  match op, hb, h with
  | .ctx, _, h =>
    cases h
    constructor <;> dsimp only
    · exact k.fr
    · exact k.cl
    · exact k.raw
    · exact k.lk
    · intro y hy; rw [upd_apply]; split
      · rfl
      · exact k.lp y hy
    · intro l; rw [k.lf]
      by_cases c : l = s.nextL
      · subst c; simp
      · have : l < s.nextL + 1 ↔ l < s.nextL := by omega
        simp only [upd_ne _ _ c, this]
    · intro l hl; rw [upd_ne _ _ (by omega)]; exact k.nl l (by omega)
    · intro l hl _; rw [upd_apply] at hl ⊢; split
      · exact .inl (by omega)
      · rw [if_neg ‹_›] at hl; exact k.rf l hl (by simp)
  | .copyCtx l, _, h =>
    cases h
    refine k.keep [] (by simp [quiet]) (by simp) (fun _ => ⟨rfl, rfl⟩) rfl rfl rfl (fun l' h => h.imp (fun h => ?_) id)
    dsimp only; rw [upd_apply]; split
    · omega
    · exact h
  | .dropCtx l, _, h =>
    refine release_G (s := { s with ext := upd s.ext l (s.ext l - 1) }) (ec := some l) ?_ h
    refine { k with rf := fun l' hl hx => ?_ }
    dsimp only
    rw [upd_ne _ _ (by simpa using hx)]
    exact k.rf l' hl (by simp)
  | .empty o kd, hb, h =>
    simp only [Spec.Event.step] at hb; split at hb
    · cases hb
    · rename_i hn
      have hn : a.var o = none := by simpa using hn
      have hv := r.var o; rw [hn] at hv
      cases kd with
      | one c => cases h; exact evEmpty_G k (hv.1 _)
      | timed =>
        cases h
        exact (evEmpty_G (p := ⟨.obj o, .timer⟩) (c := .timer) (evEmpty_G (p := ⟨.obj o, .fd⟩) (c := .fd) k (hv.1 _)) (by simp only [evEmpty, St.setEv]; rw [upd_ne _ _ (by simp), hv.1])).tm' _
  | .new o kd l cb fd ok, hb, h =>
    cases ok with
    | true =>
      cases kd with
      | one c => exact evNew_G k h
      | timed => exact tNew_G k h
    | false =>
      simp only [Spec.Event.step] at hb; split at hb
      · cases hb
      · rename_i hn
        have hl : s.loops l = true := r.low.ext l (by rw [r.ext]; have := (not_or.mp hn).2; omega)
        cases kd <;> cases h <;> exact newHd_G k false hl
  | .move o p (.one _), _, h => exact evMove_G k h
  | .move o p .timed, _, h => exact tMove_G k h
  | .assign o p (.one _), _, h => exact evAssign_G k h
  | .assign o p .timed, _, h => exact tAssign_G k h
  | .swap o p (.one _), _, h => exact evSwap_G k h
  | .swap o p .timed, _, h => exact tSwap_G k h
  | .clear o (.one _), _, h => exact (evClear_G k h).1
  | .clear o .timed, _, h => exact tClear_G k h
  | .destroy o (.one _), _, h => exact evDtor_G k h
  | .destroy o .timed, _, h => exact tDtor_G k h
  | .setCb o (.one _) c, _, h => exact evSetCb_G k h
  | .setCb o .timed c, _, h => exact tSetCb_G k h
  | .add o (.one _) once ms, _, h => exact evAdd_G k h
  | .add o .timed once ms, _, h => exact tAdd_G k h
  | .del o (.one _), _, h => exact evDel_G k h
  | .del o .timed, _, h => exact tDel_G k h
  | .fire n, _, h => exact fire_G k h
  | .done, _, h =>
    cases h
    have := k.run s.running.tail (o := []) (by simp [quiet])
    rw [St.say] at this; simp only [List.append_nil] at this; exact this
  | .closeCb n, _, h => cases h; exact closeCb_G k

theorem G_init : G init := by
  constructor <;> simp [init]

theorem R.run_G {s s' : St} {a b : Sp} (r : R s a) (k : G s) (ops : List Op) (hb : Spec.Event.run a ops = some b) (h : Event.run s ops = some s') : G s' := by
  induction ops generalizing s a with
  | nil => cases h; exact k
  | cons x ops ih =>
    simp only [Spec.Event.run, Option.bind_eq_some_iff] at hb
    obtain ⟨c, h1, h2⟩ := hb
    obtain ⟨s1, g1, g2⟩ := r.step x h1
    simp only [Event.run, g1, Option.bind_some] at h
    exact ih g2 (r.step_G x k h1 g1) h2 h

end Event
end Salticidae
