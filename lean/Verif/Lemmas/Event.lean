import Verif.Spec.Event
/-!
Each operation on an event object: what it does to the objects and handles.
-/
namespace Salticidae
namespace Event
open Spec.Event (seen Val)

@[simp] theorem upd_self {α β : Type} [DecidableEq α] (f : α → β) (a : α) (b : β) : upd f a b a = b := by simp [upd]
theorem upd_ne {α β : Type} [DecidableEq α] (f : α → β) {a x : α} (b : β) (h : x ≠ a) : upd f a b x = f x := by simp [upd, h]
theorem upd_apply {α β : Type} [DecidableEq α] (f : α → β) (a x : α) (b : β) : upd f a b x = if x = a then b else f x := rfl

/-- Objects, handles and loops fit together. -/
structure Low (s : St) : Prop where
  own : ∀ p e h, s.ev p = some e → e.ev = some h → (s.hd h).st = .opened ∧ e.ec = some (s.hd h).loop ∧ h < s.nextH
  inj : ∀ p q e f h, s.ev p = some e → s.ev q = some f → e.ev = some h → f.ev = some h → p = q
  op : ∀ h, (s.hd h).st = .opened → ∃ p e, s.ev p = some e ∧ e.ev = some h
  live : ∀ p, p ∈ s.live ↔ s.ev p ≠ none
  nodup : s.live.Nodup
  lp : ∀ p e l, s.ev p = some e → e.ec = some l → s.loops l = true
  ext : ∀ l, 0 < s.ext l → s.loops l = true
  run : ∀ r ∈ s.running, 0 < s.ext r.1
  fresh : ∀ h, s.nextH ≤ h → (s.hd h).st = .raw
  freshL : ∀ l, s.nextL ≤ l → s.loops l = false

/-- What an operation may do to the rest: handles not in `cl` stay as they are, but for the data of those in `D`. -/
structure Eff (s s' : St) (D : Nat → Prop) (cl : List Nat) : Prop where
  hd : ∀ h, (s.hd h).st = .opened → h ∉ cl → s'.hd h = { s.hd h with data := (s'.hd h).data } ∧ (¬ D h → s'.hd h = s.hd h)
  ext : s'.ext = s.ext
  running : s'.running = s.running
  nextH : s'.nextH = s.nextH
  nextL : s'.nextL = s.nextL
  out : seen s'.out = seen s.out ++ cl.map .closed

theorem Eff.st {s s' : St} {D : Nat → Prop} {cl : List Nat} (k : Eff s s' D cl) {h : Nat} (h1 : (s.hd h).st = .opened) (h2 : h ∉ cl) : (s'.hd h).st = .opened := by
  rw [(k.hd h h1 h2).1]; exact h1

theorem Eff.trans {s s' s'' : St} {D E : Nat → Prop} {cl cl' : List Nat} (k : Eff s s' D cl) (k' : Eff s' s'' E cl') : Eff s s'' (fun h => D h ∨ E h) (cl ++ cl') where
  hd h h1 h2 := by
    simp only [List.mem_append, not_or] at h2
    have a := k.hd h h1 h2.1
    have b := k'.hd h (k.st h1 h2.1) h2.2
    refine ⟨?_, fun h3 => ?_⟩
    · rw [b.1, a.1]
    · rw [b.2 (fun h4 => h3 (.inr h4)), a.2 (fun h4 => h3 (.inl h4))]
  ext := k'.ext.trans k.ext
  running := k'.running.trans k.running
  nextH := k'.nextH.trans k.nextH
  nextL := k'.nextL.trans k.nextL
  out := by rw [k'.out, k.out]; simp

theorem Eff.refl (s : St) (D : Nat → Prop) : Eff s s D [] := ⟨fun _ _ _ => ⟨rfl, fun _ => rfl⟩, rfl, rfl, rfl, rfl, by simp⟩

theorem Eff.mono {s s' : St} {D E : Nat → Prop} {cl : List Nat} (k : Eff s s' D cl) (h : ∀ x, D x → E x) : Eff s s' E cl :=
  { k with hd := fun x h1 h2 => ⟨(k.hd x h1 h2).1, fun h3 => (k.hd x h1 h2).2 (fun h4 => h3 (h x h4))⟩ }

@[simp] theorem seen_append (a b : List Out) : seen (a ++ b) = seen a ++ seen b := by simp [seen]
@[simp] theorem seen_indet (b : Bool) : seen (indetIf b) = [] := by cases b <;> rfl
@[simp] theorem seen_dropped (c : Option Nat) : seen (dropped c) = [] := by cases c <;> rfl

def Ev.gone (e : Ev) : Ev := { e with ec := none, ev := none, cb := none }

theorem Low.st_ne {s : St} (k : Low s) {p : Ptr} {e : Ev} {h : Nat} (h1 : s.ev p = some e) (h2 : e.ev = some h) : (s.hd h).st ≠ .freed := by
  rw [(k.own p e h h1 h2).1]; simp

/-- Only data of handles and `out` change. -/
theorem Low.data {s s' : St} (k : Low s) (h : ∀ h, (s'.hd h).st = (s.hd h).st ∧ (s'.hd h).loop = (s.hd h).loop) (h1 : s'.ev = s.ev) (h2 : s'.live = s.live) (h3 : s'.loops = s.loops)
    (h4 : s'.ext = s.ext) (h5 : s'.running = s.running) (h6 : s'.nextH = s.nextH) (h7 : s'.nextL = s.nextL) : Low s' := by
  constructor
  · intro p e x a b; rw [h1] at a; rw [(h x).1, (h x).2, h6]; exact k.own p e x a b
  · rw [h1]; exact k.inj
  · intro x a; rw [(h x).1] at a; rw [h1]; exact k.op x a
  · rw [h1, h2]; exact k.live
  · rw [h2]; exact k.nodup
  · rw [h1, h3]; exact k.lp
  · rw [h4, h3]; exact k.ext
  · rw [h4, h5]; exact k.run
  · intro x a; rw [(h x).1]; rw [h6] at a; exact k.fresh x a
  · rw [h7, h3]; exact k.freshL

theorem setData_ok {s : St} (k : Low s) {h : Nat} (p : Ptr) (hs : (s.hd h).st ≠ .freed) :
    ∃ s', setData s h p = some s' ∧ Low s' ∧ s'.ev = s.ev ∧ s'.tm = s.tm ∧ Eff s s' (fun x => h = x) [] ∧ (s'.hd h).data = some p ∧ s'.hd h = { s.hd h with data := some p } ∧ (∀ x, x ≠ h → s'.hd x = s.hd x) := by
  refine ⟨s.setHd h { s.hd h with data := some p }, by rw [setData, if_neg hs], k.data (fun x => ?_) rfl rfl rfl rfl rfl rfl rfl, rfl, rfl, ⟨fun x _ _ => ?_, rfl, rfl, rfl, rfl, by simp [St.setHd]⟩,
    by simp [St.setHd], by simp [St.setHd], fun x hx => by simp [St.setHd, upd_ne _ _ hx]⟩
  · simp only [St.setHd, upd_apply]; split
    · subst_vars; exact ⟨rfl, rfl⟩
    · exact ⟨rfl, rfl⟩
  · simp only [St.setHd, upd_apply]; split
    · subst_vars; exact ⟨rfl, fun h => absurd rfl h⟩
    · exact ⟨rfl, fun _ => rfl⟩

theorem setData?_ok {s : St} (k : Low s) {h : Option Nat} (p : Ptr) (hs : ∀ x, h = some x → (s.hd x).st ≠ .freed) :
    ∃ s', setData? s h p = some s' ∧ Low s' ∧ s'.ev = s.ev ∧ s'.tm = s.tm ∧ Eff s s' (fun x => h = some x) [] ∧ (∀ x, h = some x → (s'.hd x).data = some p) := by
  cases h with
  | none => exact ⟨s, rfl, k, rfl, rfl, Eff.refl _ _, fun _ h => by cases h⟩
  | some h =>
    obtain ⟨s', h1, h2, h3, h4, h5, h6, _⟩ := setData_ok k p (hs h rfl)
    exact ⟨s', h1, h2, h3, h4, h5.mono (fun x hx => by rw [hx]), fun x hx => by cases hx; exact h6⟩

/-- Move construction. -/
theorem evMove_ok {s : St} (k : Low s) {dst src : Ptr} {e : Ev} (hs : s.ev src = some e) (hd : s.ev dst = none) :
    ∃ s', evMove s dst src = some s' ∧ Low s' ∧ s'.ev = upd (upd s.ev dst (some e)) src (some e.gone) ∧ s'.tm = s.tm ∧ Eff s s' (fun h => e.ev = some h) [] ∧
      (∀ h, e.ev = some h → (s'.hd h).data = some dst) := by
  have hne : dst ≠ src := fun h => by rw [h, hs] at hd; cases hd
  have hl : dst ∉ s.live := fun h => (k.live dst).mp h hd
  simp only [evMove, hs, hd, Option.isSome_none, Bool.false_eq_true, if_false]
  have k1 : Low (St.say { (s.setEv dst e).setEv src { e with ec := none, ev := none, cb := none } with live := dst :: s.live } (indetIf (e.cls = .fd ∧ e.fd = none))) := by
    constructor <;> simp only [St.say, St.setEv]
    · intro p f h h1 h2
      rw [upd_apply] at h1
      split at h1
      · cases h1; cases h2
      · rw [upd_apply] at h1
        split at h1
        · cases h1; exact k.own _ _ _ hs h2
        · exact k.own p f h h1 h2
    · intro p q f g h h1 h2 h3 h4
      rw [upd_apply] at h1 h2
      split at h1
      · cases h1; cases h3
      · split at h2
        · cases h2; cases h4
        · rw [upd_apply] at h1 h2
          split at h1
          · cases h1
            split at h2
            · subst_vars; rfl
            · have := k.inj _ _ _ _ h hs h2 h3 h4; exact absurd this.symm ‹_›
          · split at h2
            · cases h2
              have := k.inj _ _ _ _ h hs h1 h4 h3; exact absurd this.symm ‹_›
            · exact k.inj p q f g h h1 h2 h3 h4
    · intro h h1
      obtain ⟨p, f, h2, h3⟩ := k.op h h1
      have hpd : p ≠ dst := fun h4 => by subst h4; rw [hd] at h2; cases h2
      by_cases hps : p = src
      · subst hps
        rw [hs] at h2; cases h2
        exact ⟨dst, e, by rw [upd_ne _ _ hne, upd_self], h3⟩
      · exact ⟨p, f, by rw [upd_ne _ _ hps, upd_ne _ _ hpd, h2], h3⟩
    · intro p
      simp only [List.mem_cons, upd_apply, k.live p]
      by_cases h1 : p = src
      · subst h1; simp [hs]
      · by_cases h2 : p = dst
        · subst h2; simp [h1]
        · simp [h1, h2]
    · exact List.nodup_cons.mpr ⟨hl, k.nodup⟩
    · intro p f l h1 h2
      rw [upd_apply] at h1
      split at h1
      · cases h1; cases h2
      · rw [upd_apply] at h1
        split at h1
        · cases h1; exact k.lp _ _ _ hs h2
        · exact k.lp p f l h1 h2
    · exact k.ext
    · exact k.run
    · exact k.fresh
    · exact k.freshL
  obtain ⟨s', h1, h2, h3, h4, h5, h6⟩ := setData?_ok k1 (h := e.ev) dst (fun x hx => k.st_ne hs hx)
  refine ⟨s', h1, h2, h3, h4, ⟨fun h a b => h5.hd h a b, h5.ext, h5.running, h5.nextH, h5.nextL, ?_⟩, h6⟩
  rw [h5.out]; simp [St.say, St.setEv]

/-- swap of two objects. -/
theorem evSwap_ok {s : St} (k : Low s) {p q : Ptr} {a b : Ev} (hp : s.ev p = some a) (hq : s.ev q = some b) (hne : p ≠ q) :
    ∃ s', evSwap s p q = some s' ∧ Low s' ∧ s'.ev = upd (upd s.ev p (some b)) q (some a) ∧ s'.tm = s.tm ∧ Eff s s' (fun h => a.ev = some h ∨ b.ev = some h) [] ∧
      (∀ h, b.ev = some h → (s'.hd h).data = some p) ∧ (∀ h, a.ev = some h → (s'.hd h).data = some q) := by
  simp only [evSwap, hp, hq]
  have k1 : Low (St.say ((s.setEv p b).setEv q a) (indetIf (a.cls = .fd ∧ (a.fd = none ∨ b.fd = none)))) := by
    constructor <;> simp only [St.say, St.setEv]
    · intro r f h h1 h2
      rw [upd_apply] at h1
      split at h1
      · cases h1; exact k.own _ _ _ hp h2
      · rw [upd_apply] at h1
        split at h1
        · cases h1; exact k.own _ _ _ hq h2
        · exact k.own r f h h1 h2
    · intro r t f g h h1 h2 h3 h4
      have back : ∀ r f, upd (upd s.ev p (some b)) q (some a) r = some f → ∃ r', s.ev r' = some f ∧ ((r = q ∧ r' = p) ∨ (r = p ∧ r ≠ q ∧ r' = q) ∨ (r ≠ p ∧ r ≠ q ∧ r' = r)) := by
        intro r f h1
        rw [upd_apply] at h1
        split at h1
        · cases h1; exact ⟨p, hp, .inl ⟨‹_›, rfl⟩⟩
        · rw [upd_apply] at h1
          split at h1
          · cases h1; exact ⟨q, hq, .inr (.inl ⟨‹_›, ‹_›, rfl⟩)⟩
          · exact ⟨r, h1, .inr (.inr ⟨‹_›, ‹_›, rfl⟩)⟩
      obtain ⟨r', e1, c1⟩ := back r f h1
      obtain ⟨t', e2, c2⟩ := back t g h2
      have := k.inj _ _ _ _ h e1 e2 h3 h4
      subst this
      rcases c1 with ⟨rfl, rfl⟩ | ⟨rfl, _, rfl⟩ | ⟨_, _, rfl⟩ <;> rcases c2 with ⟨rfl, c⟩ | ⟨rfl, _, c⟩ | ⟨_, _, c⟩ <;> simp_all
    · intro h h1
      obtain ⟨r, f, h2, h3⟩ := k.op h h1
      by_cases hr : r = p
      · subst hr; rw [hp] at h2; cases h2
        exact ⟨q, a, by simp, h3⟩
      · by_cases hr' : r = q
        · subst hr'; rw [hq] at h2; cases h2
          exact ⟨p, b, by rw [upd_ne _ _ hne, upd_self], h3⟩
        · exact ⟨r, f, by rw [upd_ne _ _ hr', upd_ne _ _ hr, h2], h3⟩
    · intro r
      simp only [upd_apply, k.live r]
      by_cases h1 : r = q
      · subst h1; simp [hq]
      · by_cases h2 : r = p
        · subst h2; simp [h1, hp]
        · simp [h1, h2]
    · exact k.nodup
    · intro r f l h1 h2
      rw [upd_apply] at h1
      split at h1
      · cases h1; exact k.lp _ _ _ hp h2
      · rw [upd_apply] at h1
        split at h1
        · cases h1; exact k.lp _ _ _ hq h2
        · exact k.lp r f l h1 h2
    · exact k.ext
    · exact k.run
    · exact k.fresh
    · exact k.freshL
  obtain ⟨s1, h1, h2, h3, h4, h5, h6⟩ := setData?_ok k1 (h := b.ev) p (fun x hx => k.st_ne hq hx)
  obtain ⟨s2, g1, g2, g3, g4, g5, g6⟩ := setData?_ok h2 (h := a.ev) q (fun x hx => h2.st_ne (p := q) (e := a) (by rw [h3]; simp [St.say, St.setEv]) hx)
  refine ⟨s2, by rw [h1]; exact g1, g2, by rw [g3, h3]; rfl, by rw [g4, h4]; rfl, ?_, fun h hb => ?_, g6⟩
  · have := (h5.trans g5).mono (E := fun h => a.ev = some h ∨ b.ev = some h) (fun x hx => hx.symm)
    refine ⟨fun h a b => this.hd h a b, this.ext, this.running, this.nextH, this.nextL, ?_⟩
    rw [this.out]; simp [St.say, St.setEv]
  · have hn : ¬ a.ev = some h := fun ha => hne (k.inj _ _ _ _ h hp hq ha hb)
    have ho := k.own _ _ _ hq hb
    rw [(g5.hd h (h5.st (show (s.hd h).st = _ from ho.1) (by simp)) (by simp)).2 hn]
    exact h6 h hb

/-- clear. -/
theorem evClear_ok {s : St} (k : Low s) {p : Ptr} {e : Ev} (hp : s.ev p = some e) :
    ∃ s', evClear s p = some s' ∧ Low s' ∧ s'.ev = upd s.ev p (some { e with ev := none, cb := none }) ∧ s'.tm = s.tm ∧ Eff s s' (fun _ => False) e.ev.toList := by
  simp only [evClear, hp]
  cases he : e.ev with
  | none =>
    refine ⟨_, rfl, ?_, rfl, rfl, ⟨fun _ _ _ => ⟨rfl, fun _ => rfl⟩, rfl, rfl, rfl, rfl, by simp [St.say, St.setEv]⟩⟩
    constructor <;> simp only [St.say, St.setEv]
    · intro r f h h1 h2
      rw [upd_apply] at h1
      split at h1
      · cases h1; cases h2
      · exact k.own r f h h1 h2
    · intro r t f g h h1 h2 h3 h4
      rw [upd_apply] at h1 h2
      split at h1
      · cases h1; cases h3
      · split at h2
        · cases h2; cases h4
        · exact k.inj r t f g h h1 h2 h3 h4
    · intro h h1
      obtain ⟨r, f, h2, h3⟩ := k.op h h1
      have : r ≠ p := fun h4 => by subst h4; rw [hp] at h2; cases h2; rw [he] at h3; cases h3
      exact ⟨r, f, by rw [upd_ne _ _ this, h2], h3⟩
    · intro r
      simp only [upd_apply, k.live r]
      by_cases h1 : r = p
      · subst h1; simp [hp]
      · simp [h1]
    · exact k.nodup
    · intro r f l h1 h2
      rw [upd_apply] at h1
      split at h1
      · cases h1; exact k.lp _ _ _ hp h2
      · exact k.lp r f l h1 h2
    · exact k.ext
    · exact k.run
    · exact k.fresh
    · exact k.freshL
  | some h0 =>
    have ho := k.own p e h0 hp he
    simp only [uvStop, if_pos ho.1, Option.bind_some, uvClose, St.setHd, upd_self, Option.map_some, St.say, St.setEv]
    have hst : ∀ h, h ≠ h0 → upd (upd s.hd h0 { s.hd h0 with active := false }) h0 { s.hd h0 with active := false, st := .closing } h = s.hd h := by
      intro h hh; rw [upd_ne _ _ hh, upd_ne _ _ hh]
    refine ⟨_, rfl, ?_, rfl, rfl, ⟨fun h _ h2 => ?_, rfl, rfl, rfl, rfl, by rw [seen_append, seen_append, seen_dropped, List.append_nil]; rfl⟩⟩
    · constructor <;> dsimp only
      · intro r f h h1 h2
        rw [upd_apply] at h1
        split at h1
        · cases h1; cases h2
        · have : h ≠ h0 := fun h3 => by subst h3; have := k.inj _ _ _ _ h h1 hp h2 he; contradiction
          rw [hst h this]; exact k.own r f h h1 h2
      · intro r t f g h h1 h2 h3 h4
        rw [upd_apply] at h1 h2
        split at h1
        · cases h1; cases h3
        · split at h2
          · cases h2; cases h4
          · exact k.inj r t f g h h1 h2 h3 h4
      · intro h h1
        by_cases hh : h = h0
        · subst hh; rw [upd_self] at h1; cases h1
        · rw [hst h hh] at h1
          obtain ⟨r, f, h2, h3⟩ := k.op h h1
          have : r ≠ p := fun h4 => by subst h4; rw [hp] at h2; cases h2; rw [he] at h3; cases h3; exact hh rfl
          exact ⟨r, f, by rw [upd_ne _ _ this, h2], h3⟩
      · intro r
        simp only [upd_apply, k.live r]
        by_cases h1 : r = p
        · subst h1; simp [hp]
        · simp [h1]
      · exact k.nodup
      · intro r f l h1 h2
        rw [upd_apply] at h1
        split at h1
        · cases h1; exact k.lp _ _ _ hp h2
        · exact k.lp r f l h1 h2
      · exact k.ext
      · exact k.run
      · intro h h1
        rw [hst h (by omega)]; exact k.fresh h h1
      · exact k.freshL
    · have : h ≠ h0 := by simpa using h2
      dsimp only
      rw [hst h this]; exact ⟨rfl, fun _ => rfl⟩

/-- An EventContext goes. -/
theorem release_ok {s : St} (k : Low s) (ec : Option Nat) :
    ∃ s', release s ec = some s' ∧ Low s' ∧ s'.ev = s.ev ∧ s'.tm = s.tm ∧ Eff s s' (fun _ => False) [] := by
  cases ec with
  | none => exact ⟨s, rfl, k, rfl, rfl, Eff.refl _ _⟩
  | some l =>
    simp only [release]
    split
    · rename_i hl
      simp only [Bool.and_eq_true, noRef, beq_iff_eq, List.all_eq_true] at hl
      obtain ⟨_, h0, hr⟩ := hl
      have hr : ∀ p e, s.ev p = some e → e.ec ≠ some l := fun p e hp => by
        have := hr p ((k.live p).mpr (by rw [hp]; simp))
        rw [hp] at this
        simpa using this
      have hop : ∀ h, (s.hd h).st = .opened → (s.hd h).loop ≠ l := fun h h1 h2 => by
        obtain ⟨p, e, h3, h4⟩ := k.op h h1
        have := (k.own p e h h3 h4).2.1
        rw [h2] at this
        exact hr p e h3 this
      have hrun : s.running.any (fun r => r.1 == l) = false := by
        rw [List.any_eq_false]
        intro r h1 h2
        have := k.run r h1
        rw [beq_iff_eq.mp h2, h0] at this; omega
      have hcl : handlesOf s l (· == .opened) = [] := by
        simp only [handlesOf, List.filter_eq_nil_iff, List.mem_range, Bool.and_eq_true, beq_iff_eq]
        exact fun h _ h1 => hop h h1.2 h1.1
      rw [freeLoop, if_neg (by rw [hrun]; simp), hcl]
      have hst : ∀ h, (s.hd h).st = .opened → (if (s.hd h).loop = l ∧ ((s.hd h).st = .opened ∨ (s.hd h).st = .closing) then { s.hd h with st := .freed, active := false } else s.hd h) = s.hd h :=
        fun h h1 => if_neg (fun h2 => hop h h1 h2.1)
      refine ⟨_, rfl, ?_, rfl, rfl, ⟨fun h h1 _ => ?_, rfl, rfl, rfl, rfl, ?_⟩⟩
      · constructor <;> simp only [St.say]
        · intro p e h h1 h2
          have := k.own p e h h1 h2
          rw [hst h this.1]; exact this
        · exact k.inj
        · intro h h1
          apply k.op
          split at h1
          · cases h1
          · exact h1
        · exact k.live
        · exact k.nodup
        · intro p e l' h1 h2
          rw [upd_ne _ _ (fun h3 => hr p e h1 (by rw [← h3]; exact h2))]
          exact k.lp p e l' h1 h2
        · intro l' h1
          rw [upd_ne _ _ (fun h3 => by subst h3; omega)]
          exact k.ext l' h1
        · exact k.run
        · intro h h1
          have := k.fresh h h1
          split
          · rename_i h2; rw [this] at h2; simp at h2
          · exact this
        · intro l' h1
          rw [upd_apply]; split
          · rfl
          · exact k.freshL l' h1
      · simp only [St.say]
        rw [hst h h1]; exact ⟨rfl, fun _ => rfl⟩
      · have : ∀ l' : List Nat, seen (l'.map Out.freed) = [] := fun l' => by simp [seen]
        simp [St.say, this, seen]
    · exact ⟨s, rfl, k, rfl, rfl, Eff.refl _ _⟩

/-- Destruction. -/
theorem evDtor_ok {s : St} (k : Low s) {p : Ptr} {e : Ev} (hp : s.ev p = some e) :
    ∃ s', evDtor s p = some s' ∧ Low s' ∧ s'.ev = upd s.ev p none ∧ s'.tm = s.tm ∧ Eff s s' (fun _ => False) e.ev.toList := by
  obtain ⟨s1, h1, h2, h3, h4, h5⟩ := evClear_ok k hp
  have hp1 : s1.ev p = some { e with ev := none, cb := none } := by rw [h3]; simp
  have k1 : Low { s1 with ev := upd s1.ev p none, live := s1.live.erase p } := by
    constructor <;> dsimp only
    · intro r f h a b
      rw [upd_apply] at a
      split at a
      · cases a
      · exact h2.own r f h a b
    · intro r t f g h a b c d
      rw [upd_apply] at a b
      split at a
      · cases a
      · split at b
        · cases b
        · exact h2.inj r t f g h a b c d
    · intro h a
      obtain ⟨r, f, b, c⟩ := h2.op h a
      have : r ≠ p := fun h => by subst h; rw [hp1] at b; cases b; cases c
      exact ⟨r, f, by rw [upd_ne _ _ this, b], c⟩
    · intro r
      rw [h2.nodup.mem_erase_iff, h2.live r, upd_apply]
      by_cases hr : r = p <;> simp [hr]
    · exact h2.nodup.erase _
    · intro r f l a b
      rw [upd_apply] at a
      split at a
      · cases a
      · exact h2.lp r f l a b
    · exact h2.ext
    · exact h2.run
    · exact h2.fresh
    · exact h2.freshL
  obtain ⟨s2, g1, g2, g3, g4, g5⟩ := release_ok k1 e.ec
  refine ⟨s2, ?_, g2, ?_, ?_, ?_⟩
  · simp only [evDtor, h1, Option.bind_some, hp1]; exact g1
  · rw [g3, h3]; funext x; simp only [upd_apply]; split <;> rfl
  · rw [g4]; exact h4
  · have := h5.trans (s'' := s2) (E := fun _ => False) (cl' := []) ⟨fun h a b => g5.hd h a b, g5.ext, g5.running, g5.nextH, g5.nextL, g5.out⟩
    rw [List.append_nil] at this
    exact this.mono (fun x hx => by simpa using hx)

/-- Move assignment. -/
theorem evAssign_ok {s : St} (k : Low s) {t p q : Ptr} {a b : Ev} (ht : s.ev t = none) (hp : s.ev p = some a) (hq : s.ev q = some b) (hne : p ≠ q) :
    ∃ s', evAssign t s p q = some s' ∧ Low s' ∧ s'.ev = upd (upd s.ev p (some b)) q (some b.gone) ∧ s'.tm = s.tm ∧ Eff s s' (fun h => b.ev = some h) a.ev.toList ∧
      (∀ h, b.ev = some h → (s'.hd h).data = some p) := by
  have htp : t ≠ p := fun h => by rw [h, hp] at ht; cases ht
  have htq : t ≠ q := fun h => by rw [h, hq] at ht; cases ht
  obtain ⟨s1, h1, h2, h3, h4, h5, _⟩ := evMove_ok k hq ht
  have e1 : s1.ev t = some b := by rw [h3, upd_ne _ _ htq, upd_self]
  have e2 : s1.ev p = some a := by rw [h3, upd_ne _ _ hne, upd_ne _ _ htp.symm, hp]
  obtain ⟨s2, g1, g2, g3, g4, g5, g6, g7⟩ := evSwap_ok h2 e1 e2 htp
  have e3 : s2.ev t = some a := by rw [g3, upd_ne _ _ htp, upd_self]
  obtain ⟨s3, i1, i2, i3, i4, i5⟩ := evDtor_ok g2 e3
  have hab : ∀ h, a.ev = some h → b.ev = some h → False := fun h x y => hne (k.inj _ _ _ _ h hp hq x y)
  refine ⟨s3, by simp only [evAssign, if_neg hne, h1, Option.bind_some, g1, i1], i2, ?_, by rw [i4, g4, h4], ?_, fun h hb => ?_⟩
  · rw [i3, g3, h3]
    funext x; simp only [upd_apply]
    by_cases x1 : x = t
    · subst x1; simp [htp, htq, ht]
    · by_cases x2 : x = p
      · subst x2; simp [x1, hne]
      · simp [x1, x2]
  · have := (h5.trans g5).trans i5
    simp only [List.nil_append] at this
    refine ⟨fun h x y => ⟨(this.hd h x y).1, fun z => (this.hd h x y).2 ?_⟩, this.ext, this.running, this.nextH, this.nextL, this.out⟩
    have : ¬ a.ev = some h := fun w => y (by simp [w])
    simp_all
  · have hna : h ∉ a.ev.toList := fun w => hab h (by simpa using w) hb
    have ho := (k.own _ _ _ hq hb).1
    rw [(i5.hd h (g5.st (h5.st ho (by simp)) (by simp)) hna).2 (by simp)]
    exact g7 h hb

/-- std::swap. -/
theorem stdSwap_ok {s : St} (k : Low s) {t t' p q : Ptr} {a b : Ev} (ht : s.ev t = none) (ht' : s.ev t' = none) (htt : t ≠ t') (hp : s.ev p = some a) (hq : s.ev q = some b) (hne : p ≠ q) :
    ∃ s', stdSwap t t' s p q = some s' ∧ Low s' ∧ s'.ev = upd (upd s.ev p (some b)) q (some a) ∧ s'.tm = s.tm ∧ Eff s s' (fun h => a.ev = some h ∨ b.ev = some h) [] := by
  have htp : t ≠ p := fun h => by rw [h, hp] at ht; cases ht
  have htq : t ≠ q := fun h => by rw [h, hq] at ht; cases ht
  have htp' : t' ≠ p := fun h => by rw [h, hp] at ht'; cases ht'
  have htq' : t' ≠ q := fun h => by rw [h, hq] at ht'; cases ht'
  obtain ⟨s1, h1, h2, h3, h4, h5, _⟩ := evMove_ok k hp ht
  have e1 : s1.ev p = some a.gone := by rw [h3, upd_self]
  have e2 : s1.ev q = some b := by rw [h3, upd_ne _ _ hne.symm, upd_ne _ _ htq.symm, hq]
  have e3 : s1.ev t' = none := by rw [h3, upd_ne _ _ htp', upd_ne _ _ htt.symm, ht']
  obtain ⟨s2, g1, g2, g3, g4, g5, _⟩ := evAssign_ok h2 e3 e1 e2 hne
  have f1 : s2.ev q = some b.gone := by rw [g3, upd_self]
  have f2 : s2.ev t = some a := by rw [g3, upd_ne _ _ htq, upd_ne _ _ htp, h3, upd_ne _ _ htp, upd_self]
  have f3 : s2.ev t' = none := by rw [g3, upd_ne _ _ htq', upd_ne _ _ htp', e3]
  obtain ⟨s3, i1, i2, i3, i4, i5, _⟩ := evAssign_ok g2 f3 f1 f2 htq.symm
  have j1 : s3.ev t = some a.gone := by rw [i3, upd_self]
  obtain ⟨s4, j2, j3, j4, j5, j6⟩ := evDtor_ok i2 j1
  refine ⟨s4, by simp only [stdSwap, h1, Option.bind_some, g1, i1, j2], j3, ?_, by rw [j5, i4, g4, h4], ?_⟩
  · rw [j4, i3, g3, h3]
    funext x; simp only [upd_apply]
    by_cases x1 : x = t
    · subst x1; simp [htp, htq, ht]
    · by_cases x2 : x = q
      · subst x2; simp [x1]
      · by_cases x3 : x = p
        · subst x3; simp [x1, x2]
        · simp [x1, x2, x3]
  · have := ((h5.trans g5).trans i5).trans j6
    simp only [Ev.gone, Option.toList_none, List.append_nil] at this
    exact this.mono (fun x hx => by grind)

end Event
end Salticidae
