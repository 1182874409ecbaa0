import Verif.Lemmas.QueueGone
import Verif.Model.QueueOwn
/-!
What the slots of a queue's blocks own.
-/
namespace Salticidae
namespace QueueOwn
open Queue
open FreeList (upd upd_apply upd_self upd_other)

variable {α : Type}

/-- The slot that a thread has filled and not yet made available. -/
def fills : Pc α → Option (Nat × Nat)
  | .e17 _ _ t k => some (t, k)
  | .w11 _ h k => some (h, k)
  | _ => none

/-- The slot that a thread has emptied and not yet marked so. -/
def drops : Pc α → Option (Nat × Nat)
  | .d10 h k _ => some (h, k)
  | .m9 h k _ => some (h, k)
  | _ => none

/-- A slot owns something from the moment it is filled to that when it is emptied. -/
structure Ok (s : St α) (o : O α) : Prop where
  put : ∀ j b k, fills (s.pc j) = some (b, k) → o.own b k ≠ none ∧ o.own b k = (s.blk b).elem k
  av : ∀ b k, (s.blk b).avail k = true → (∀ j, drops (s.pc j) ≠ some (b, k)) → o.own b k ≠ none ∧ o.own b k = (s.blk b).elem k
  only : ∀ b k, o.own b k ≠ none → ((s.blk b).avail k = true ∧ ∀ j, drops (s.pc j) ≠ some (b, k)) ∨ ∃ j, fills (s.pc j) = some (b, k)
  lost : o.lost = []
  full : o.hollow = false

theorem ok_init : Ok (init α) O.init := by
  refine ⟨fun j b k h => ?_, fun b k h => ?_, fun b k h => ?_, rfl, rfl⟩
  · simp [init, fills] at h
  · simp [init] at h
  · simp [O.init] at h

theorem Ok.frame {s s' : St α} {o : O α} (k : Ok s o) (hf : ∀ j, fills (s'.pc j) = fills (s.pc j)) (hd : ∀ j, drops (s'.pc j) = drops (s.pc j))
    (ha : ∀ b k, (s'.blk b).avail k = (s.blk b).avail k) (he : ∀ b k, (s'.blk b).elem k = (s.blk b).elem k) : Ok s' o := by
  refine ⟨fun j b x h => ?_, fun b x h h2 => ?_, fun b x h => ?_, k.lost, k.full⟩
  · rw [he]; exact k.put j b x (by rw [← hf]; exact h)
  · rw [he]; exact k.av b x (by rw [← ha]; exact h) (fun j => by rw [← hd]; exact h2 j)
  · rcases k.only b x h with ⟨h1, h2⟩ | ⟨j, h1⟩
    · exact .inl ⟨by rw [ha]; exact h1, fun j => by rw [hd]; exact h2 j⟩
    · exact .inr ⟨j, by rw [hf]; exact h1⟩

/-- A step that neither fills nor empties a slot. -/
theorem local_frame [DecidableEq α] {B : Nat} {s s' : St α} {i : Nat} {ch : Bool} {r : FreeList.Res} (h : localStep B s i ch r = some s')
    (hn : ∀ e u t k, s.pc i ≠ .e16 e u t k) (hn2 : ∀ e h k, s.pc i ≠ .w10 e h k) (hn3 : ∀ h k, s.pc i ≠ .d9 h k) (hn4 : ∀ h k, s.pc i ≠ .m8 h k)
    (hn5 : fills (s.pc i) = none) (hn6 : drops (s.pc i) = none) : (∀ j, fills (s'.pc j) = fills (s.pc j)) ∧ (∀ j, drops (s'.pc j) = drops (s.pc j)) ∧
      (∀ b k, (s'.blk b).avail k = (s.blk b).avail k) ∧ (∀ b k, (s'.blk b).elem k = (s.blk b).elem k) := by
  have hpc := local_pc h
  have key : fills (s'.pc i) = none ∧ drops (s'.pc i) = none ∧ (∀ b k, (s'.blk b).avail k = (s.blk b).avail k) ∧ (∀ b k, (s'.blk b).elem k = (s.blk b).elem k) := by
    simp only [localStep] at h
    cases hp : s.pc i <;>
      simp only [hp, enqStep, deqStep, rewStep, mpmcStep, addStep, Option.none_or, Option.or_none, Option.some_or, gotBlk] at h
    all_goals (repeat' split at h)
    all_goals first
      | (cases h; done)
      | (exact absurd hp (hn _ _ _ _))
      | (exact absurd hp (hn2 _ _ _))
      | (exact absurd hp (hn3 _ _))
      | (exact absurd hp (hn4 _ _))
      | (rw [hp] at hn5; cases hn5; done)
      | (rw [hp] at hn6; cases hn6; done)
      | (cases h
         simp only [St.ret, St.setPc, St.rcd, St.setBlk, St.setStat, St.call, upd_self]
         refine ⟨?_, ?_, ?_, ?_⟩
         · first | rfl | (split <;> rfl)
         · first | rfl | (split <;> rfl)
         · intro b k; first | rfl | (simp only [upd_apply]; done) | (simp only [upd_apply]; split <;> first | rfl | (rename_i e; subst e; rfl))
         · intro b k; first | rfl | (simp only [upd_apply]; done) | (simp only [upd_apply]; split <;> first | rfl | (rename_i e; subst e; rfl)))
  refine ⟨fun j => ?_, fun j => ?_, key.2.2.1, key.2.2.2⟩
  · by_cases hj : j = i
    · subst hj; rw [key.1, hn5]
    · rw [(hpc j hj).1]
  · by_cases hj : j = i
    · subst hj; rw [key.2.1, hn6]
    · rw [(hpc j hj).1]

/-- A step that touches one slot. -/
theorem Ok.change {s s' : St α} {o o' : O α} {i b k : Nat} (ok : Ok s o) (hpc : ∀ j, j ≠ i → s'.pc j = s.pc j)
    (hf : fills (s.pc i) = none ∨ fills (s.pc i) = some (b, k)) (hf' : fills (s'.pc i) = none ∨ fills (s'.pc i) = some (b, k))
    (hd : drops (s.pc i) = none ∨ drops (s.pc i) = some (b, k)) (hd' : drops (s'.pc i) = none ∨ drops (s'.pc i) = some (b, k))
    (hav : ∀ b' k', (b', k') ≠ (b, k) → (s'.blk b').avail k' = (s.blk b').avail k') (hel : ∀ b' k', (b', k') ≠ (b, k) → (s'.blk b').elem k' = (s.blk b').elem k')
    (hown : ∀ b' k', (b', k') ≠ (b, k) → o'.own b' k' = o.own b' k') (hl : o'.lost = []) (hh : o'.hollow = false)
    (h1 : (∃ j, fills (s'.pc j) = some (b, k)) → o'.own b k ≠ none ∧ o'.own b k = (s'.blk b).elem k)
    (h2 : (s'.blk b).avail k = true → (∀ j, drops (s'.pc j) ≠ some (b, k)) → o'.own b k ≠ none ∧ o'.own b k = (s'.blk b).elem k)
    (h3 : o'.own b k ≠ none → ((s'.blk b).avail k = true ∧ ∀ j, drops (s'.pc j) ≠ some (b, k)) ∨ ∃ j, fills (s'.pc j) = some (b, k)) : Ok s' o' := by
  have hfo : ∀ j b' k', (b', k') ≠ (b, k) → (fills (s'.pc j) = some (b', k') ↔ fills (s.pc j) = some (b', k')) := by
    intro j b' k' hn
    by_cases hj : j = i
    · subst hj
      constructor
      · intro h; rcases hf' with h' | h' <;> rw [h'] at h <;> cases h; exact absurd rfl hn
      · intro h; rcases hf with h' | h' <;> rw [h'] at h <;> cases h; exact absurd rfl hn
    · rw [hpc j hj]
  have hdo : ∀ j b' k', (b', k') ≠ (b, k) → (drops (s'.pc j) = some (b', k') ↔ drops (s.pc j) = some (b', k')) := by
    intro j b' k' hn
    by_cases hj : j = i
    · subst hj
      constructor
      · intro h; rcases hd' with h' | h' <;> rw [h'] at h <;> cases h; exact absurd rfl hn
      · intro h; rcases hd with h' | h' <;> rw [h'] at h <;> cases h; exact absurd rfl hn
    · rw [hpc j hj]
  refine ⟨fun j b' k' h => ?_, fun b' k' h hq => ?_, fun b' k' h => ?_, hl, hh⟩
  · by_cases hn : (b', k') = (b, k)
    · cases hn; exact h1 ⟨j, h⟩
    · rw [hown _ _ hn, hel _ _ hn]; exact ok.put j b' k' ((hfo _ _ _ hn).1 h)
  · by_cases hn : (b', k') = (b, k)
    · cases hn; exact h2 h hq
    · rw [hown _ _ hn, hel _ _ hn]
      exact ok.av b' k' (by rw [← hav _ _ hn]; exact h) (fun j hx => hq j ((hdo _ _ _ hn).2 hx))
  · by_cases hn : (b', k') = (b, k)
    · cases hn; exact h3 h
    · rw [hown _ _ hn] at h
      rcases ok.only b' k' h with ⟨q1, q2⟩ | ⟨j, q1⟩
      · exact .inl ⟨by rw [hav _ _ hn]; exact q1, fun j hx => q2 j ((hdo _ _ _ hn).1 hx)⟩
      · exact .inr ⟨j, (hfo _ _ _ hn).2 q1⟩

theorem upd2_self {β : Type} (f : Nat → Nat → β) (a b : Nat) (x : β) : upd2 f a b x a b = x := by simp [upd2]
theorem upd2_other {β : Type} (f : Nat → Nat → β) {a b a' b' : Nat} (x : β) (h : (a', b') ≠ (a, b)) : upd2 f a b x a' b' = f a' b' := by
  simp only [upd2, upd_apply]
  grind

section
variable [DecidableEq α] {B : Nat} {m : Mode} {s : St α}

theorem drops_reads {p : Pc α} {b k : Nat} (h : drops p = some (b, k)) : p.reads = some (b, k) := by
  cases p <;> simp [drops] at h <;> simp [Pc.reads, h]

/-- Nobody is emptying a slot that someone is filling, or that is not available. -/
theorem drops_avail (k : Inv B m s) {j b x : Nat} (h : drops (s.pc j) = some (b, x)) : (s.blk b).avail x = true := by
  have hl := k.loc j
  cases hp : s.pc j <;> rw [hp] at h hl <;> simp [drops] at h
  all_goals (obtain ⟨rfl, rfl⟩ := h; simp only [Loc] at hl; exact hl.2)

/-- A slot that is available is not being filled. -/
theorem avail_fills (k : Inv B m s) {i b x : Nat} (ha : (s.blk b).avail x = true) (hr : (s.pc i).reads = some (b, x)) (hi : fills (s.pc i) = none) (j : Nat) : fills (s.pc j) ≠ some (b, x) := by
  intro h
  have hrd := (k.rd b x i).2 hr
  have hL : Live s b x := .inr (by rw [hrd]; simp)
  cases hp : s.pc j <;> rw [hp] at h <;> simp [fills] at h
  case e17 e u t y =>
    obtain ⟨rfl, rfl⟩ := h
    have hw := (k.wr t y j).2 (by rw [hp]; rfl)
    rcases k.sl t y hL with h1 | h1
    · rw [hw] at h1; exact absurd h1.1 (by simp)
    · rw [ha] at h1; exact absurd h1.2 (by simp)
  case w11 e hh y =>
    obtain ⟨rfl, rfl⟩ := h
    have r1 := k.role j
    rw [hp] at r1
    have r2 := k.role i
    have hji : j ≠ i := by rintro rfl; rw [hp] at hi; cases hi
    cases hq : s.pc i <;> rw [hq] at r2 hr <;> simp [Pc.reads] at hr <;> simp only [Pc.role] at r1 r2
    all_goals (rw [r1] at r2; cases r2; try exact hji rfl)

/-- The slot a thread is about to fill owns nothing. -/
theorem fill_none (k : Inv B m s) {o : O α} (ok : Ok s o) {i e u t x} (hp : s.pc i = .e16 e u t x) : o.own t x = none ∧ (s.blk t).avail x = false ∧ ∀ j, fills (s.pc j) ≠ some (t, x) := by
  have hw := (k.wr t x i).2 (by rw [hp]; rfl)
  have hL : Live s t x := Classical.byContradiction fun h => by have := (k.sd t x h).2; rw [hw] at this; cases this
  have ha : (s.blk t).avail x = false := by
    rcases k.sl t x hL with h1 | h1
    · rw [hw] at h1; exact absurd h1.1 (by simp)
    · exact h1.2
  have hf : ∀ j, fills (s.pc j) ≠ some (t, x) := by
    intro j h
    cases hq : s.pc j <;> rw [hq] at h <;> simp [fills] at h
    case e17 e' u' t' y =>
      obtain ⟨rfl, rfl⟩ := h
      have hw2 := (k.wr t' y j).2 (by rw [hq]; rfl)
      rw [hw] at hw2
      cases hw2
      rw [hp] at hq; cases hq
    case w11 e' hh y =>
      obtain ⟨rfl, rfl⟩ := h
      have hl := k.loc j
      rw [hq] at hl
      simp only [Loc] at hl
      rcases hL with hL | hL
      · omega
      · obtain ⟨j', hj'⟩ := Option.ne_none_iff_exists'.1 hL
        have hr := (k.rd hh y j').1 hj'
        have r1 := k.role j
        rw [hq] at r1
        have r2 := k.role j'
        have hji : j ≠ j' := by rintro rfl; rw [hq] at hr; cases hr
        cases hq' : s.pc j' <;> rw [hq'] at r2 hr <;> simp [Pc.reads] at hr <;> simp only [Pc.role] at r1 r2
        all_goals (rw [r1] at r2; cases r2; try exact hji rfl)
  refine ⟨Classical.byContradiction fun h => ?_, ha, hf⟩
  rcases ok.only t x h with ⟨h1, _⟩ | ⟨j, h1⟩
  · rw [ha] at h1; cases h1
  · exact hf j h1

theorem rewind_none (k : Inv B m s) {o : O α} (ok : Ok s o) {i e h x} (hp : s.pc i = .w10 e h x) : o.own h x = none ∧ ∀ j, fills (s.pc j) ≠ some (h, x) := by
  have hl := k.loc i
  rw [hp] at hl
  simp only [Loc] at hl
  have r1 := k.role i
  rw [hp] at r1
  simp only [Pc.role] at r1
  have hL : ¬ Live s h x := by
    rintro (hL | hL)
    · omega
    · obtain ⟨j', hj'⟩ := Option.ne_none_iff_exists'.1 hL
      have hr := (k.rd h x j').1 hj'
      have r2 := k.role j'
      have hji : i ≠ j' := by rintro rfl; rw [hp] at hr; cases hr
      cases hq' : s.pc j' <;> rw [hq'] at r2 hr <;> simp [Pc.reads] at hr <;> simp only [Pc.role] at r2
      all_goals (rw [r1] at r2; cases r2; try exact hji rfl)
  obtain ⟨ha, hw⟩ := k.sd h x hL
  have hf : ∀ j, fills (s.pc j) ≠ some (h, x) := by
    intro j hx
    cases hq : s.pc j <;> rw [hq] at hx <;> simp [fills] at hx
    case e17 e' u' t' y =>
      obtain ⟨rfl, rfl⟩ := hx
      have hw2 := (k.wr t' y j).2 (by rw [hq]; rfl)
      rw [hw] at hw2
      cases hw2
    case w11 e' hh y =>
      have r2 := k.role j
      rw [hq] at r2
      simp only [Pc.role] at r2
      rw [r1] at r2
      cases r2
      rw [hp] at hq; cases hq
  refine ⟨Classical.byContradiction fun h' => ?_, hf⟩
  rcases ok.only h x h' with ⟨h1, _⟩ | ⟨j, h1⟩
  · rw [ha] at h1; cases h1
  · exact hf j h1

theorem local_step {s' : St α} {o : O α} {i : Nat} {ch : Bool} {r : FreeList.Res} (k : Inv B m s) (ok : Ok s o) (hr : s.fl.pc i = .ret r) (h : localStep B s i ch r = some s') :
    Ok s' (o.step s (.go i ch)) := by
  have hpc := fun j hj => (local_pc h j hj).1
  by_cases c1 : ∃ e u t x, s.pc i = .e16 e u t x
  · obtain ⟨e, u, t, x, hp⟩ := c1
    have hs : o.step s (.go i ch) = o.put t x e := by simp only [O.step, hr, hp]
    rw [hs]
    obtain ⟨n1, n2, n3⟩ := fill_none k ok hp
    simp only [localStep, hp, enqStep, deqStep, rewStep, mpmcStep, addStep, Option.none_or, Option.or_none, Option.some_or, Option.some.injEq] at h
    subst h
    refine ok.change (b := t) (k := x) hpc (by simp [hp, fills]) (by simp [St.setPc, fills]) (by simp [hp, drops]) (by simp [St.setPc, drops]) ?_ ?_ ?_ (by simp [O.put, n1, ok.lost]) ok.full ?_ ?_ ?_
    · intro b' k' hn; simp only [St.setPc, St.setBlk, upd_apply]; split <;> simp_all
    · intro b' k' hn; simp only [St.setPc, St.setBlk, upd_apply]; split <;> simp only [upd_apply] <;> grind
    · intro b' k' hn; exact upd2_other _ _ hn
    · intro _; simp [O.put, upd2_self, St.setPc, St.setBlk]
    · intro _ _; simp [O.put, upd2_self, St.setPc, St.setBlk]
    · intro _; exact .inr ⟨i, by simp [St.setPc, fills]⟩
  by_cases c2 : ∃ e hh x, s.pc i = .w10 e hh x
  · obtain ⟨e, t, x, hp⟩ := c2
    have hs : o.step s (.go i ch) = o.put t x e := by simp only [O.step, hr, hp]
    rw [hs]
    obtain ⟨n1, n3⟩ := rewind_none k ok hp
    simp only [localStep, hp, enqStep, deqStep, rewStep, mpmcStep, addStep, Option.none_or, Option.or_none, Option.some_or, Option.some.injEq] at h
    subst h
    refine ok.change (b := t) (k := x) hpc (by simp [hp, fills]) (by simp [St.setPc, fills]) (by simp [hp, drops]) (by simp [St.setPc, drops]) ?_ ?_ ?_ (by simp [O.put, n1, ok.lost]) ok.full ?_ ?_ ?_
    · intro b' k' hn; simp only [St.setPc, St.setBlk, upd_apply]; split <;> simp_all
    · intro b' k' hn; simp only [St.setPc, St.setBlk, upd_apply]; split <;> simp only [upd_apply] <;> grind
    · intro b' k' hn; exact upd2_other _ _ hn
    · intro _; simp [O.put, upd2_self, St.setPc, St.setBlk]
    · intro _ _; simp [O.put, upd2_self, St.setPc, St.setBlk]
    · intro _; exact .inr ⟨i, by simp [St.setPc, fills]⟩
  by_cases c3 : ∃ b x, s.pc i = .d9 b x ∨ s.pc i = .m8 b x
  · obtain ⟨b, x, hp⟩ := c3
    have hs : o.step s (.go i ch) = o.take b x := by rcases hp with hp | hp <;> simp only [O.step, hr, hp]
    rw [hs]
    have hrd : (s.pc i).reads = some (b, x) := by rcases hp with hp | hp <;> rw [hp] <;> rfl
    have hfi : fills (s.pc i) = none := by rcases hp with hp | hp <;> rw [hp] <;> rfl
    have hdi : drops (s.pc i) = none := by rcases hp with hp | hp <;> rw [hp] <;> rfl
    have ha : (s.blk b).avail x = true := by
      have hl := k.loc i
      rcases hp with hp | hp <;> rw [hp] at hl <;> exact hl.2
    have hnf := avail_fills k ha hrd hfi
    have hnd : ∀ j, drops (s.pc j) ≠ some (b, x) := by
      intro j hj
      have h1 := (k.rd b x j).2 (drops_reads hj)
      rw [(k.rd b x i).2 hrd] at h1
      cases h1
      rw [hdi] at hj; cases hj
    have hown := ok.av b x ha hnd
    have hh : (o.take b x).hollow = false := by
      simp only [O.take, ok.full, Bool.false_or]
      cases hq : o.own b x with
      | none => exact absurd hq hown.1
      | some v => rfl
    have h4 : s'.blk = s.blk ∧ fills (s'.pc i) = none ∧ drops (s'.pc i) = some (b, x) := by
      rcases hp with hp | hp <;>
        simp only [localStep, hp, enqStep, deqStep, rewStep, mpmcStep, addStep, Option.none_or, Option.or_none, Option.some_or, Option.some.injEq] at h <;> subst h <;>
        simp [St.setPc, fills, drops]
    obtain ⟨h4, h5, h6⟩ := h4
    refine ok.change (b := b) (k := x) hpc (.inl hfi) (.inl h5) (.inl hdi) (.inr h6) (fun _ _ _ => by rw [h4]) (fun _ _ _ => by rw [h4]) (fun b' k' hn => upd2_other _ _ hn) ok.lost hh ?_ ?_ ?_
    · rintro ⟨j, hj⟩
      by_cases e : j = i
      · subst e; rw [h5] at hj; cases hj
      · rw [hpc j e] at hj; exact absurd hj (hnf j)
    · intro _ hq; exact absurd h6 (hq i)
    · intro hq; simp [O.take, upd2_self] at hq
  have hs : o.step s (.go i ch) = o := by
    simp only [O.step, hr]
    split
    · rename_i e u t x hp; exact absurd ⟨e, u, t, x, hp⟩ c1
    · rename_i e t x hp; exact absurd ⟨e, t, x, hp⟩ c2
    · rename_i t x hp; exact absurd ⟨t, x, .inl hp⟩ c3
    · rename_i t x hp; exact absurd ⟨t, x, .inr hp⟩ c3
    · rfl
  rw [hs]
  by_cases c4 : ∃ b x, fills (s.pc i) = some (b, x)
  · obtain ⟨b, x, hf⟩ := c4
    have hown := ok.put i b x hf
    have h4 : (∀ b' k', (b', k') ≠ (b, x) → (s'.blk b').avail k' = (s.blk b').avail k') ∧ (∀ b' k', (s'.blk b').elem k' = (s.blk b').elem k') ∧ fills (s'.pc i) = none ∧ drops (s'.pc i) = none ∧ (s'.blk b).avail x = true := by
      cases hp : s.pc i <;> rw [hp] at hf <;> simp [fills] at hf
      all_goals (
        obtain ⟨rfl, rfl⟩ := hf
        simp only [localStep, hp, enqStep, deqStep, rewStep, mpmcStep, addStep, Option.none_or, Option.or_none, Option.some_or, Option.some.injEq] at h
        subst h
        refine ⟨?_, ?_, ?_, ?_, ?_⟩
        · intro b' k' hn; simp only [St.setPc, St.setBlk, upd_apply]; split <;> simp only [upd_apply] <;> grind
        · intro b' k'; simp only [St.setPc, St.setBlk, upd_apply]; split <;> simp only [upd_apply] <;> grind
        · simp [St.setPc, fills]
        · simp [St.setPc, drops]
        · simp [St.setPc, St.setBlk])
    obtain ⟨q1, q2, q3, q4, q5⟩ := h4
    have hdi : drops (s.pc i) = none := by cases hp : s.pc i <;> rw [hp] at hf <;> simp [fills] at hf <;> rfl
    have hnd : ∀ j, drops (s.pc j) ≠ some (b, x) := fun j hj => avail_fills k (drops_avail k hj) (drops_reads hj) (by cases hq : s.pc j <;> rw [hq] at hj <;> simp [drops] at hj <;> rfl) i hf
    refine ok.change (b := b) (k := x) hpc (.inr hf) (.inl q3) (.inl hdi) (.inl q4) q1 (fun _ _ _ => q2 _ _) (fun _ _ _ => rfl) ok.lost ok.full ?_ ?_ ?_
    · intro _; rw [q2]; exact hown
    · intro _ _; rw [q2]; exact hown
    · intro _
      refine .inl ⟨q5, fun j hj => ?_⟩
      by_cases e : j = i
      · subst e; rw [q4] at hj; cases hj
      · rw [hpc j e] at hj; exact hnd j hj
  by_cases c5 : ∃ b x, drops (s.pc i) = some (b, x)
  · obtain ⟨b, x, hd⟩ := c5
    have ha := drops_avail k hd
    have hfi : fills (s.pc i) = none := by cases hp : s.pc i <;> rw [hp] at hd <;> simp [drops] at hd <;> rfl
    have hnf := avail_fills k ha (drops_reads hd) hfi
    have hown : o.own b x = none := Classical.byContradiction fun hn => by
      rcases ok.only b x hn with ⟨_, h1⟩ | ⟨j, h1⟩
      · exact h1 i hd
      · exact hnf j h1
    have h4 : (∀ b' k', (b', k') ≠ (b, x) → (s'.blk b').avail k' = (s.blk b').avail k') ∧ (∀ b' k', (s'.blk b').elem k' = (s.blk b').elem k') ∧ fills (s'.pc i) = none ∧ drops (s'.pc i) = none ∧ (s'.blk b).avail x = false := by
      cases hp : s.pc i <;> rw [hp] at hd <;> simp [drops] at hd
      all_goals (
        obtain ⟨rfl, rfl⟩ := hd
        simp only [localStep, hp, enqStep, deqStep, rewStep, mpmcStep, addStep, Option.none_or, Option.or_none, Option.some_or, Option.some.injEq] at h
        subst h
        refine ⟨?_, ?_, ?_, ?_, ?_⟩
        · intro b' k' hn; simp only [St.ret, St.rcd, St.setPc, St.setBlk, upd_apply]; split <;> simp only [upd_apply] <;> grind
        · intro b' k'; simp only [St.ret, St.rcd, St.setPc, St.setBlk, upd_apply]; split <;> simp only [upd_apply] <;> grind
        · simp [St.ret, St.rcd, St.setPc, fills]
        · simp [St.ret, St.rcd, St.setPc, drops]
        · simp [St.ret, St.rcd, St.setPc, St.setBlk])
    obtain ⟨q1, q2, q3, q4, q5⟩ := h4
    refine ok.change (b := b) (k := x) hpc (.inl hfi) (.inl q3) (.inr hd) (.inl q4) q1 (fun _ _ _ => q2 _ _) (fun _ _ _ => rfl) ok.lost ok.full ?_ ?_ ?_
    · rintro ⟨j, hj⟩
      by_cases e : j = i
      · subst e; rw [q3] at hj; cases hj
      · rw [hpc j e] at hj; exact absurd hj (hnf j)
    · intro hq; rw [q5] at hq; cases hq
    · intro hq; exact absurd hown hq
  have hfi : fills (s.pc i) = none := by
    cases hx : fills (s.pc i) with
    | none => rfl
    | some y => exact absurd ⟨y.1, y.2, hx⟩ c4
  have hdi : drops (s.pc i) = none := by
    cases hx : drops (s.pc i) with
    | none => rfl
    | some y => exact absurd ⟨y.1, y.2, hx⟩ c5
  obtain ⟨q1, q2, q3, q4⟩ := local_frame h (fun e u t x hp => c1 ⟨e, u, t, x, hp⟩) (fun e t x hp => c2 ⟨e, t, x, hp⟩) (fun t x hp => c3 ⟨t, x, .inl hp⟩) (fun t x hp => c3 ⟨t, x, .inr hp⟩) hfi hdi
  exact ok.frame q1 q2 q3 q4

theorem ok_step {s' : St α} {o : O α} {a : Act α} (k : Inv B m s) (ok : Ok s o) (h : step B s a = some s') : Ok s' (o.step s a) := by
  cases a with
  | start i c =>
    simp only [step] at h
    split at h
    · rename_i y hy
      cases h
      refine Ok.frame (s := s) ok (fun j => ?_) (fun j => ?_) (fun _ _ => rfl) (fun _ _ => rfl)
      · simp only [St.setPc, St.rcd, upd_apply]
        split
        · rename_i e; subst e; rw [hy]; cases c <;> rfl
        · rfl
      · simp only [St.setPc, St.rcd, upd_apply]
        split
        · rename_i e; subst e; rw [hy]; cases c <;> rfl
        · rfl
    · cases h
  | go i ch =>
    simp only [step] at h
    split at h
    · rename_i r hr
      exact local_step k ok hr h
    · rename_i hn
      simp only [Option.map_eq_some_iff] at h
      obtain ⟨fl, h1, h2⟩ := h
      subst h2
      have hs : o.step s (.go i ch) = o := by
        simp only [O.step]
      rw [hs]
      exact ok.frame (fun _ => rfl) (fun _ => rfl) (fun _ _ => rfl) (fun _ _ => rfl)

end

theorem ok_run [DecidableEq α] {B : Nat} {m : Mode} (hB : 0 < B) : ∀ {acts : List (Act α)} {s s' : St α} {o : O α}, Inv B m s → IdleFl s → Ok s o → Queue.run B s acts = some s' →
    (∀ a ∈ acts, a.allowed m) → (∀ p ∈ trace B s acts, timelyAt p.1 p.2) → (m = .multi → ∀ p ∈ trace B s acts, freshAt p.1 p.2) → Ok s' (run B s o acts)
  | [], s, s', o, k, ki, ok, h, _, _, _ => by cases h; exact ok
  | a :: as, s, s', o, k, ki, ok, h, ha, hT, hF => by
    simp only [Queue.run, Option.bind_eq_some_iff] at h
    obtain ⟨s1, h1, h2⟩ := h
    simp only [trace, h1, List.mem_cons] at hT hF
    simp only [run, h1]
    exact ok_run hB (inv_step hB k ki h1 (ha a (by simp)) (hT _ (.inl rfl)) (fun hm => hF hm _ (.inl rfl))) (idle_step ki h1) (ok_step k ok h1) h2
      (fun x hx => ha x (by simp [hx])) (fun p hp => hT p (.inr hp)) (fun hm p hp => hF hm p (.inr hp))

/-- When no operation is running, the slots own what is in the queue. -/
theorem own_idle [DecidableEq α] {B : Nat} {m : Mode} {s : St α} {o : O α} (k : Inv B m s) (ok : Ok s o) (hi : ∀ j, ∃ x, s.pc j = .idle x) (b x : Nat) :
    o.own b x = if s.stat b = .chain ∧ (s.blk b).head ≤ x ∧ x < (s.blk b).tail then s.slot b x else none := by
  have hf : ∀ j, fills (s.pc j) = none := fun j => by obtain ⟨y, h⟩ := hi j; rw [h]; rfl
  have hd : ∀ j, drops (s.pc j) = none := fun j => by obtain ⟨y, h⟩ := hi j; rw [h]; rfl
  have hrd : s.rd b x = none := by
    cases hq : s.rd b x with
    | none => rfl
    | some j => have := (k.rd b x j).1 hq; obtain ⟨y, h⟩ := hi j; rw [h] at this; cases this
  have hwr : s.wr b x = none := by
    cases hq : s.wr b x with
    | none => rfl
    | some j => have := (k.wr b x j).1 hq; obtain ⟨y, h⟩ := hi j; rw [h] at this; cases this
  split
  · rename_i hL
    rcases k.sl b x (.inl hL) with ⟨_, h1, h2⟩ | ⟨h1, _⟩
    · rw [(ok.av b x h1 (fun j => by rw [hd j]; simp)).2, h2]
    · exact absurd hwr h1
  · rename_i hL
    have hn : ¬ Live s b x := by
      rintro (h | h)
      · exact hL h
      · exact h hrd
    refine Classical.byContradiction fun hq => ?_
    rcases ok.only b x hq with ⟨h1, _⟩ | ⟨j, h1⟩
    · rw [(k.sd b x hn).1] at h1; cases h1
    · rw [hf j] at h1; cases h1

theorem filterMap_none {β γ : Type} {f : β → Option γ} : ∀ {l : List β}, (∀ x ∈ l, f x = none) → l.filterMap f = []
  | [], _ => rfl
  | x :: l, h => by rw [List.filterMap_cons, h x (by simp)]; exact filterMap_none (fun y hy => h y (by simp [hy]))

theorem filterMap_same {β γ : Type} {f g : β → Option γ} : ∀ {l : List β}, (∀ x ∈ l, f x = g x) → l.filterMap f = l.filterMap g
  | [], _ => rfl
  | x :: l, h => by rw [List.filterMap_cons, List.filterMap_cons, h x (by simp), filterMap_same (fun y hy => h y (by simp [hy]))]

/-- The elements of a block. -/
theorem block_own {f g : Nat → Option α} {B h t : Nat} (ht : t ≤ B) (hh : h ≤ t) (hf : ∀ x, f x = if h ≤ x ∧ x < t then g x else none) :
    (List.range B).filterMap f = (List.range' h (t - h)).filterMap g := by
  have e : List.range B = List.range' 0 h ++ (List.range' h (t - h) ++ List.range' t (B - t)) := by
    rw [List.range_eq_range', show List.range' h (t - h) ++ List.range' t (B - t) = List.range' h (B - h) by
      have := List.range'_append_1 (s := h) (m := t - h) (n := B - t)
      rw [show h + (t - h) = t by omega, show t - h + (B - t) = B - h by omega] at this
      exact this]
    have := List.range'_append_1 (s := 0) (m := h) (n := B - h)
    rw [show 0 + h = h by omega, show h + (B - h) = B by omega] at this
    exact this.symm
  rw [e, List.filterMap_append, List.filterMap_append, filterMap_none (l := List.range' 0 h), filterMap_none (l := List.range' t (B - t)), List.nil_append, List.append_nil]
  · refine filterMap_same (fun x hx => ?_)
    rw [List.mem_range'_1] at hx
    rw [hf, if_pos (by omega)]
  · intro x hx
    rw [List.mem_range'_1] at hx
    rw [hf, if_neg (by omega)]
  · intro x hx
    rw [List.mem_range'_1] at hx
    rw [hf, if_neg (by omega)]

theorem filterMap_of_map {β : Type} {g : Nat → Option β} {l : List Nat} : l.filterMap g = (l.map g).filterMap id := by
  rw [List.filterMap_map]; rfl

/-- What is destroyed with all blocks is what is in the queue. -/
theorem destroyed_perm [DecidableEq α] {B : Nat} {m : Mode} {s : St α} {o : O α} {gone : List Nat} (k : Inv B m s) (ok : Ok s o) (hi : ∀ j, ∃ x, s.pc j = .idle x) (hnd : gone.Nodup)
    (hg : ∀ u, u ∈ gone ↔ u < s.fl.alloc) : ∃ q, Spec.Queue.replay Spec.Queue.empty s.log = some q ∧ (o.destroyed B gone).Perm q.q := by
  obtain ⟨q, hq, hc, _⟩ := k.leg
  refine ⟨q, hq, ?_⟩
  have hsub : ∀ u ∈ s.chain, u ∈ gone := by
    intro u hu
    rw [hg]
    apply Nat.lt_of_not_le
    intro hx
    have := (k.un u hx).1
    rw [(k.mem u).1 hu] at this
    cases this
  have hperm : gone.Perm (s.chain ++ gone.filter (fun u => !s.chain.contains u)) := by
    rw [List.perm_ext_iff_of_nodup hnd]
    · intro u
      simp only [List.mem_append, List.mem_filter]
      constructor
      · intro h
        by_cases hu : u ∈ s.chain
        · exact .inl hu
        · exact .inr ⟨h, by simpa using hu⟩
      · rintro (h | h)
        · exact hsub u h
        · exact h.1
    · rw [List.nodup_append]
      refine ⟨k.nd, hnd.filter _, fun a ha b hb => ?_⟩
      rintro rfl
      simp at hb
      exact hb.2 ha
  have h1 : (o.destroyed B gone).Perm (o.destroyed B (s.chain ++ gone.filter (fun u => !s.chain.contains u))) := List.Perm.flatMap_right _ hperm
  refine h1.trans (List.Perm.of_eq ?_)
  have h2 : o.destroyed B (gone.filter (fun u => !s.chain.contains u)) = [] := by
    simp only [O.destroyed, List.flatMap_eq_nil_iff]
    intro u hu
    refine filterMap_none (fun x _ => ?_)
    rw [own_idle k ok hi, if_neg]
    rintro ⟨hu', _⟩
    simp at hu
    exact hu.2 ((k.mem u).2 hu')
  have h3 : ∀ l : List Nat, (∀ u ∈ l, u ∈ s.chain) → o.destroyed B l = (cont s.blk s.slot l).filterMap id := by
    intro l
    induction l with
    | nil => intro _; rfl
    | cons u l ih =>
      intro hl
      have hu := (k.mem u).1 (hl u (by simp))
      rw [cont_cons, List.filterMap_append, ← ih (fun v hv => hl v (by simp [hv]))]
      simp only [O.destroyed, List.flatMap_cons]
      congr 1
      rw [← filterMap_of_map]
      refine block_own (k.tl u hu) (k.ht u hu) (fun x => ?_)
      rw [own_idle k ok hi]
      simp only [hu, true_and]
  rw [show o.destroyed B (s.chain ++ gone.filter (fun u => !s.chain.contains u)) = o.destroyed B s.chain ++ o.destroyed B (gone.filter (fun u => !s.chain.contains u)) by
    simp only [O.destroyed, List.flatMap_append], h2, List.append_nil, h3 _ (fun _ h => h), ← hc, List.filterMap_map]
  simp

end QueueOwn
end Salticidae
