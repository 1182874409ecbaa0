import Verif.Lemmas.QueueStep5
/-!
The element of a claimed place is written, read, and the place is given back.
-/
namespace Salticidae
namespace Queue
open FreeList (upd upd_apply upd_self upd_other)

variable {α : Type} [DecidableEq α]

/-- The element is written. -/
theorem inv_write {B : Nat} {m : Mode} {s : St α} {i t tt : Nat} {e : α} {unb : Bool} (k : Inv B m s) {r : FreeList.Res} (hf : s.fl.pc i = .ret r)
    (hp : s.pc i = .e16 e unb t tt) :
    Inv B m ((s.setBlk t { s.blk t with elem := upd (s.blk t).elem tt (some e) }).setPc i (.e17 e unb t tt)) := by
  have hl := k.loc i
  rw [hp] at hl
  obtain ⟨hg, hsl⟩ := hl
  have hwr : s.wr t tt = some i := (k.wr t tt i).2 (by rw [hp]; rfl)
  have hst := good_chain hg
  generalize hs' : (s.setBlk t { s.blk t with elem := upd (s.blk t).elem tt (some e) }).setPc i (.e17 e unb t tt) = s'
  have e1 : s'.fl = s.fl ∧ s'.qhead = s.qhead ∧ s'.qtail = s.qtail ∧ s'.chain = s.chain ∧ s'.stat = s.stat ∧ s'.seen = s.seen ∧ s'.lk = s.lk ∧ s'.hid = s.hid ∧
      s'.pc = upd s.pc i (.e17 e unb t tt) := by rw [← hs']; exact ⟨rfl, rfl, rfl, rfl, rfl, rfl, rfl, rfl, rfl⟩
  have e2 : s'.blk = upd s.blk t { s.blk t with elem := upd (s.blk t).elem tt (some e) } ∧ s'.slot = s.slot ∧ s'.wr = s.wr ∧ s'.rd = s.rd ∧ s'.log = s.log := by
    rw [← hs']; exact ⟨rfl, rfl, rfl, rfl, rfl⟩
  clear hs'
  obtain ⟨e2, e3, e4, e5, e6⟩ := e2
  have e7 : s'.blk t = { s.blk t with elem := upd (s.blk t).elem tt (some e) } := by rw [e2, upd_self]
  have e8 : ∀ u, u ≠ t → s'.blk u = s.blk u := by rw [e2]; exact fun u hu => upd_other _ _ hu
  have hbu : ∀ u, (s'.blk u).head = (s.blk u).head ∧ (s'.blk u).tail = (s.blk u).tail ∧ (s'.blk u).avail = (s.blk u).avail ∧
      ∀ c, ¬ (u = t ∧ c = tt) → (s'.blk u).elem c = (s.blk u).elem c := by
    intro u
    by_cases h : u = t
    · subst h; rw [e7]; refine ⟨rfl, rfl, rfl, fun c hc => upd_other _ _ (by simpa using hc)⟩
    · rw [e8 u h]; exact ⟨rfl, rfl, rfl, fun _ _ => rfl⟩
  have hlive : ∀ b c, Live s' b c ↔ Live s b c := by
    intro b c
    simp only [Live, e1.2.2.2.2.1, e5, (hbu b).1, (hbu b).2.1]
  refine inv_slot (s := s) (s' := s') (i := i) (b := t) k hf e1 hst e8 (by rw [e7]) ?_ ?_ ?_ ?_ ?_ ?_ ?_ ?_ ?_ ?_ ?_ trivial ?_ ?_ ?_
  · intro _; exact ⟨(hbu t).1, (hbu t).2.1⟩
  · intro hc
    rw [(hbu t).1, (hbu t).2.1]
    have := k.tl t hc; have := k.ht t hc
    refine ⟨Nat.le_refl _, by omega, by omega, fun _ => rfl, fun _ => rfl, fun _ => rfl, fun _ => ⟨Nat.le_refl _, by omega⟩⟩
  · intro j _ _
    refine ⟨(hbu t).1, fun c hc hr => (hbu t).2.2.2 c ?_⟩
    rintro ⟨_, h⟩
    rw [h] at hc hr
    have : ¬ Live s t tt := by
      rintro (h1 | h1)
      · omega
      · exact h1 hr
    have := (k.sd t tt this).2; rw [hwr] at this; cases this
  · intro b' c j hj hw
    rw [e3]
    refine ⟨rfl, (hbu b').2.2.2 c ?_⟩
    rintro ⟨h1, h2⟩; rw [h1, h2, hwr] at hw; cases hw; exact hj rfl
  · intro b' c j hj hw
    rw [e3, (hbu b').2.2.1]; exact ⟨rfl, id⟩
  · intro b c hl
    rw [(hbu b).2.2.1, e3, e4]
    have := k.sl b c ((hlive b c).1 hl)
    by_cases h : b = t ∧ c = tt
    · rw [h.1, h.2] at this ⊢
      rcases this with h1 | h1
      · rw [hwr] at h1; cases h1.1
      · exact .inr h1
    · rw [(hbu b).2.2.2 c h]; exact this
  · intro b c hl
    rw [(hbu b).2.2.1, e4]
    exact k.sd b c (fun h => hl ((hlive b c).2 h))
  · intro b' c hr
    left
    rw [e5] at hr
    refine ⟨hr, fun h => ?_⟩
    rw [(hbu t).1, ← h]; exact (k.rdk b' c hr).1
  · intro b c j
    rw [e5, k.rd, upd_apply]
    split
    · rename_i h; rw [h, hp]; rfl
    · rfl
  · intro b c j
    rw [e4, k.wr, upd_apply]
    split
    · rename_i h; rw [h, hp]; rfl
    · rfl
  · rw [hp]; exact ⟨rfl, rfl⟩
  · rw [hp]; rfl
  · intro hgd _
    refine ⟨hgd t hg, by rw [e3]; exact hsl, ?_⟩
    rw [e7]; exact upd_self _ _ _
  · have := leg_same (s := s) (s' := s') (i := i) e6 ?_ ?_
    · simpa only [e1.2.2.2.2.2.2.2.2, upd_self] using this
    · rw [e3, e1.2.2.2.1]
      exact cont_congr (fun b _ => ⟨(hbu b).1, (hbu b).2.1, fun _ _ _ => rfl⟩)
    · rw [e1.2.2.2.2.2.2.2.2, upd_self, hp]; rfl

/-- The element is made available. -/
theorem inv_avail {B : Nat} {m : Mode} {s : St α} {i t tt : Nat} {e : α} {unb : Bool} (k : Inv B m s) {r : FreeList.Res} (hf : s.fl.pc i = .ret r)
    (hp : s.pc i = .e17 e unb t tt) :
    Inv B m (St.setPc { s.setBlk t { s.blk t with avail := upd (s.blk t).avail tt true } with wr := upd2 s.wr t tt none } i (.e18 t)) := by
  have hl := k.loc i
  rw [hp] at hl
  obtain ⟨hg, hsl, hel⟩ := hl
  have hwr : s.wr t tt = some i := (k.wr t tt i).2 (by rw [hp]; rfl)
  have hst := good_chain hg
  generalize hs' : (St.setPc { s.setBlk t { s.blk t with avail := upd (s.blk t).avail tt true } with wr := upd2 s.wr t tt none } i (.e18 t)) = s'
  have e1 : s'.fl = s.fl ∧ s'.qhead = s.qhead ∧ s'.qtail = s.qtail ∧ s'.chain = s.chain ∧ s'.stat = s.stat ∧ s'.seen = s.seen ∧ s'.lk = s.lk ∧ s'.hid = s.hid ∧
      s'.pc = upd s.pc i (.e18 t) := by rw [← hs']; exact ⟨rfl, rfl, rfl, rfl, rfl, rfl, rfl, rfl, rfl⟩
  have e2 : s'.blk = upd s.blk t { s.blk t with avail := upd (s.blk t).avail tt true } ∧ s'.slot = s.slot ∧ s'.wr = upd2 s.wr t tt none ∧ s'.rd = s.rd ∧ s'.log = s.log := by
    rw [← hs']; exact ⟨rfl, rfl, rfl, rfl, rfl⟩
  clear hs'
  obtain ⟨e2, e3, e4, e5, e6⟩ := e2
  have e7 : s'.blk t = { s.blk t with avail := upd (s.blk t).avail tt true } := by rw [e2, upd_self]
  have e8 : ∀ u, u ≠ t → s'.blk u = s.blk u := by rw [e2]; exact fun u hu => upd_other _ _ hu
  have hbu : ∀ u, (s'.blk u).head = (s.blk u).head ∧ (s'.blk u).tail = (s.blk u).tail ∧ (s'.blk u).elem = (s.blk u).elem ∧
      ∀ c, ¬ (u = t ∧ c = tt) → (s'.blk u).avail c = (s.blk u).avail c := by
    intro u
    by_cases h : u = t
    · subst h; rw [e7]; refine ⟨rfl, rfl, rfl, fun c hc => upd_other _ _ (by simpa using hc)⟩
    · rw [e8 u h]; exact ⟨rfl, rfl, rfl, fun _ _ => rfl⟩
  have hav : (s'.blk t).avail tt = true := by rw [e7]; exact upd_self _ _ _
  have hlive : ∀ b c, Live s' b c ↔ Live s b c := by
    intro b c
    simp only [Live, e1.2.2.2.2.1, e5, (hbu b).1, (hbu b).2.1]
  have hlt : Live s t tt := by
    refine Classical.byContradiction fun h => ?_
    have := (k.sd t tt h).2; rw [hwr] at this; cases this
  refine inv_slot (s := s) (s' := s') (i := i) (b := t) k hf e1 hst e8 (by rw [e7]) ?_ ?_ ?_ ?_ ?_ ?_ ?_ ?_ ?_ ?_ ?_ trivial ?_ ?_ ?_
  · intro _; exact ⟨(hbu t).1, (hbu t).2.1⟩
  · intro hc
    rw [(hbu t).1, (hbu t).2.1]
    have := k.tl t hc; have := k.ht t hc
    refine ⟨Nat.le_refl _, by omega, by omega, fun _ => rfl, fun _ => rfl, fun _ => rfl, fun _ => ⟨Nat.le_refl _, by omega⟩⟩
  · intro j _ _
    exact ⟨(hbu t).1, fun c hc hr => by rw [(hbu t).2.2.1]⟩
  · intro b' c j hj hw
    rw [e3, (hbu b').2.2.1]; exact ⟨rfl, rfl⟩
  · intro b' c j hj hw
    rw [e3]
    refine ⟨rfl, fun h => ?_⟩
    by_cases h' : b' = t ∧ c = tt
    · rw [h'.1, h'.2]; exact hav
    · rw [(hbu b').2.2.2 c h']; exact h
  · intro b c hl
    rw [(hbu b).2.2.1, e3, e4]
    have := k.sl b c ((hlive b c).1 hl)
    by_cases h : b = t ∧ c = tt
    · rw [h.1, h.2, upd2_self]
      left; exact ⟨rfl, hav, by rw [hel, hsl]⟩
    · rw [(hbu b).2.2.2 c h, upd2_other _ _ h]; exact this
  · intro b c hl
    have hnl : ¬ Live s b c := fun h => hl ((hlive b c).2 h)
    have h : ¬ (b = t ∧ c = tt) := by rintro ⟨h1, h2⟩; rw [h1, h2] at hnl; exact hnl hlt
    rw [(hbu b).2.2.2 c h, e4, upd2_other _ _ h]
    exact k.sd b c hnl
  · intro b' c hr
    left
    rw [e5] at hr
    refine ⟨hr, fun h => ?_⟩
    rw [(hbu t).1, ← h]; exact (k.rdk b' c hr).1
  · intro b c j
    rw [e5, k.rd, upd_apply]
    split
    · rename_i h; rw [h, hp]; rfl
    · rfl
  · intro b c j
    rw [e4, upd_apply]
    by_cases h : b = t ∧ c = tt
    · rw [h.1, h.2, upd2_self]
      split
      · simp [Pc.writes]
      · rename_i h'
        rw [← k.wr, hwr]
        simp; exact fun h => h' h.symm
    · rw [upd2_other _ _ h, k.wr]
      split
      · rename_i h'
        rw [h', hp]
        constructor
        · intro hx; simp only [Pc.writes, Option.some.injEq, Prod.mk.injEq] at hx; exact absurd ⟨hx.1.symm, hx.2.symm⟩ h
        · intro hx; cases hx
      · rfl
  · rw [hp]; exact ⟨rfl, rfl⟩
  · rw [hp]; rfl
  · intro hgd _; trivial
  · have := leg_same (s := s) (s' := s') (i := i) e6 ?_ ?_
    · simpa only [e1.2.2.2.2.2.2.2.2, upd_self] using this
    · rw [e3, e1.2.2.2.1]
      exact cont_congr (fun b _ => ⟨(hbu b).1, (hbu b).2.1, fun _ _ _ => rfl⟩)
    · rw [e1.2.2.2.2.2.2.2.2, upd_self, hp]; rfl

theorem chain_eq {B : Nat} {m : Mode} {s : St α} (k : Inv B m s) : ∃ l, s.chain = s.qhead :: l ∧ s.qhead ∉ l := by
  have h1 := k.hd
  have h2 := k.nd
  cases hc : s.chain with
  | nil => rw [hc] at h1; cases h1
  | cons a l =>
    rw [hc] at h1 h2
    cases h1
    exact ⟨l, rfl, (List.nodup_cons.1 h2).1⟩

/-- The front element is taken. -/
theorem inv_take {B : Nat} {m : Mode} {s : St α} {i h hh : Nat} {p : Pc α} (k : Inv B m s) {r : FreeList.Res} (hf : s.fl.pc i = .ret r)
    (hq : h = s.qhead) (hhd : (s.blk h).head = hh) (hlt : hh < (s.blk h).tail) (hm : m = .single i ∨ m = .multi)
    (hd : (s.pc i).doing s.slot = .called .deq ∨ (s.pc i).doing s.slot = .called .deqM) (hd' : p.doing s.slot = .done (.val (s.slot h hh)))
    (hrd : (s.pc i).reads = none ∧ p.reads = some (h, hh)) (hwr : (s.pc i).writes = none ∧ p.writes = none)
    (hlk : p.links = none ∧ (s.pc i).links = none) (hrole : p.role m i) (hheld : heldOf p (.ret r) = heldOf (s.pc i) (.ret r))
    (hloc : ∀ s' : St α, s'.qhead = h → Loc B s' i p) :
    Inv B m { (s.setBlk h { s.blk h with head := hh + 1 }).rcd (.take i) with rd := upd2 s.rd h hh (some i), pc := upd s.pc i p } := by
  have hst : s.stat h = .chain := hq ▸ head_chain k
  obtain ⟨l, hc, hnl⟩ := chain_eq k
  have hrn : s.rd h hh = none := by
    cases hx : s.rd h hh with
    | none => rfl
    | some j => have := (k.rdk h hh (by rw [hx]; simp)).1; omega
  generalize hs' : ({ (s.setBlk h { s.blk h with head := hh + 1 }).rcd (.take i) with rd := upd2 s.rd h hh (some i), pc := upd s.pc i p } : St α) = s'
  have e1 : s'.fl = s.fl ∧ s'.qhead = s.qhead ∧ s'.qtail = s.qtail ∧ s'.chain = s.chain ∧ s'.stat = s.stat ∧ s'.seen = s.seen ∧ s'.lk = s.lk ∧ s'.hid = s.hid ∧
      s'.pc = upd s.pc i p := by rw [← hs']; exact ⟨rfl, rfl, rfl, rfl, rfl, rfl, rfl, rfl, rfl⟩
  have e2 : s'.blk = upd s.blk h { s.blk h with head := hh + 1 } ∧ s'.slot = s.slot ∧ s'.wr = s.wr ∧ s'.rd = upd2 s.rd h hh (some i) ∧ s'.log = s.log ++ [.take i] := by
    rw [← hs']; exact ⟨rfl, rfl, rfl, rfl, rfl⟩
  clear hs'
  obtain ⟨e2, e3, e4, e5, e6⟩ := e2
  have e7 : s'.blk h = { s.blk h with head := hh + 1 } := by rw [e2, upd_self]
  have e8 : ∀ u, u ≠ h → s'.blk u = s.blk u := by rw [e2]; exact fun u hu => upd_other _ _ hu
  have hbu : ∀ u, (s'.blk u).tail = (s.blk u).tail ∧ (s'.blk u).elem = (s.blk u).elem ∧ (s'.blk u).avail = (s.blk u).avail := by
    intro u
    by_cases h' : u = h
    · subst h'; rw [e7]; exact ⟨rfl, rfl, rfl⟩
    · rw [e8 u h']; exact ⟨rfl, rfl, rfl⟩
  have hlive : ∀ b c, Live s' b c ↔ Live s b c := by
    intro b c
    simp only [Live, e1.2.2.2.2.1, (hbu b).1]
    by_cases h' : b = h
    · rw [h', e7, e5]; simp only [hst, hhd]
      by_cases h2 : c = hh
      · rw [h2, upd2_self]; simp [hlt]
      · rw [upd2_other _ _ (by simp [h2])]; grind
    · rw [e8 b h', e5, upd2_other _ _ (by simp [h'])]
  refine inv_slot (s := s) (s' := s') (i := i) (b := h) k hf e1 (.inl hst) e8 (by rw [e7]) ?_ ?_ ?_ ?_ ?_ ?_ ?_ ?_ ?_ ?_ hlk hrole hheld ?_ ?_
  · intro hx; have := hx.1; rw [hst] at this; cases this
  · intro _
    have := k.tl h hst; have := k.ht h hst
    rw [(hbu h).1, e7]
    refine ⟨Nat.le_refl _, by omega, by simp only; omega, fun hx => ?_, fun _ => rfl, fun _ => rfl, fun _ => ⟨by simp only; omega, by simp only; omega⟩⟩
    rw [hc, hq] at hx; exact absurd hx hnl
  · intro j hj hm'
    rcases hm with h1 | h1
    · rw [h1] at hm'; cases hm'; exact absurd rfl hj
    · rw [h1] at hm'; cases hm'
  · intro b' c j hj hw
    rw [e3, (hbu b').2.1]; exact ⟨rfl, rfl⟩
  · intro b' c j hj hw
    rw [e3, (hbu b').2.2]; exact ⟨rfl, id⟩
  · intro b c hl
    rw [(hbu b).2.1, (hbu b).2.2, e3, e4]
    exact k.sl b c ((hlive b c).1 hl)
  · intro b c hl
    rw [(hbu b).2.2, e4]
    exact k.sd b c (fun h => hl ((hlive b c).2 h))
  · intro b' c hr
    by_cases h' : b' = h ∧ c = hh
    · right; rw [e7]; exact ⟨h'.1, by simp only; omega⟩
    · left
      rw [e5, upd2_other _ _ h'] at hr
      refine ⟨hr, fun h2 => ?_⟩
      have := (k.rdk b' c hr).1
      rw [e7]; simp only; rw [h2] at this; omega
  · intro b c j
    rw [e5, upd_apply]
    by_cases h' : b = h ∧ c = hh
    · rw [h'.1, h'.2, upd2_self]
      split
      · rename_i h'; rw [h', hrd.2]; simp
      · rename_i h'
        rw [← k.rd, hrn]; simp; exact fun h => h' h.symm
    · rw [upd2_other _ _ h', k.rd]
      split
      · rename_i h2
        rw [h2, hrd.1, hrd.2]; simp; exact fun h1 h2 => h' ⟨h1.symm, h2.symm⟩
      · rfl
  · intro b c j
    rw [e4, k.wr, upd_apply]
    split
    · rename_i h; rw [h, hwr.1, hwr.2]
    · rfl
  · intro _ _; exact hloc s' (e1.2.1.trans hq.symm)
  · have hle := leg_event (s := s) (s' := s') (i := i) e6
    simp only [e1.2.2.2.2.2.2.2.2, upd_self] at hle
    apply hle
    intro q hqq hdd
    have hct := cont_take (blk := s.blk) (slot := s.slot) (b := h) (l := l) (x := { s.blk h with head := hh + 1 }) (by omega) (hq ▸ hnl) (by simp only; omega) rfl
    rw [hc, ← hq, hct] at hqq
    cases hx : q.q with
    | nil => rw [hx] at hqq; cases hqq
    | cons x q1 =>
      rw [hx] at hqq
      simp only [List.map_cons, List.cons.injEq] at hqq
      refine ⟨{ q.set i (.done (.val (some x))) with q := q1 }, ?_, ?_, ?_, ?_⟩
      · rcases hd with h1 | h1 <;> rw [h1] at hdd <;> simp [Spec.Queue.after, hdd, hx]
      · rw [e2, e3, e1.2.2.2.1, hc, ← hq]; exact hqq.2
      · rw [e3, hd', ← hhd, ← hqq.1]; simp [Spec.Queue.Q.set]
      · intro j hj; simp [Spec.Queue.Q.set, hj]

/-- The place of an element that was read is given back. -/
theorem inv_untake {B : Nat} {m : Mode} {s s' : St α} {i h hh : Nat} {p : Pc α} {lg : List (Ev α)} (k : Inv B m s) {r : FreeList.Res} (hf : s.fl.pc i = .ret r)
    (hs : s' = { s.setBlk h { s.blk h with avail := upd (s.blk h).avail hh false } with rd := upd2 s.rd h hh none, log := lg, pc := upd s.pc i p })
    (hav : (s.blk h).avail hh = true)
    (hrd : (s.pc i).reads = some (h, hh) ∧ p.reads = none) (hwr : (s.pc i).writes = none ∧ p.writes = none)
    (hlk : p.links = none ∧ (s.pc i).links = none) (hrole : p.role m i) (hheld : heldOf p (.ret r) = heldOf (s.pc i) (.ret r))
    (hloc : ∀ s' : St α, Loc B s' i p)
    (hleg : ∀ q, Spec.Queue.replay Spec.Queue.empty s.log = some q → q.doing i = (s.pc i).doing s.slot →
      ∃ q', Spec.Queue.replay Spec.Queue.empty lg = some q' ∧ q'.q = q.q ∧ q'.doing i = p.doing s.slot ∧ ∀ j, j ≠ i → q'.doing j = q.doing j) :
    Inv B m s' := by
  have hri : s.rd h hh = some i := (k.rd h hh i).2 hrd.1
  have hrk := k.rdk h hh (by rw [hri]; simp)
  have e1 : s'.fl = s.fl ∧ s'.qhead = s.qhead ∧ s'.qtail = s.qtail ∧ s'.chain = s.chain ∧ s'.stat = s.stat ∧ s'.seen = s.seen ∧ s'.lk = s.lk ∧ s'.hid = s.hid ∧
      s'.pc = upd s.pc i p := by rw [hs]; exact ⟨rfl, rfl, rfl, rfl, rfl, rfl, rfl, rfl, rfl⟩
  have e2 : s'.blk = upd s.blk h { s.blk h with avail := upd (s.blk h).avail hh false } ∧ s'.slot = s.slot ∧ s'.wr = s.wr ∧ s'.rd = upd2 s.rd h hh none ∧ s'.log = lg := by
    rw [hs]; exact ⟨rfl, rfl, rfl, rfl, rfl⟩
  clear hs
  obtain ⟨e2, e3, e4, e5, e6⟩ := e2
  have e7 : s'.blk h = { s.blk h with avail := upd (s.blk h).avail hh false } := by rw [e2, upd_self]
  have e8 : ∀ u, u ≠ h → s'.blk u = s.blk u := by rw [e2]; exact fun u hu => upd_other _ _ hu
  have hbu : ∀ u, (s'.blk u).head = (s.blk u).head ∧ (s'.blk u).tail = (s.blk u).tail ∧ (s'.blk u).elem = (s.blk u).elem ∧
      ∀ c, ¬ (u = h ∧ c = hh) → (s'.blk u).avail c = (s.blk u).avail c := by
    intro u
    by_cases h' : u = h
    · subst h'; rw [e7]; refine ⟨rfl, rfl, rfl, fun c hc => upd_other _ _ (by simpa using hc)⟩
    · rw [e8 u h']; exact ⟨rfl, rfl, rfl, fun _ _ => rfl⟩
  have hav' : (s'.blk h).avail hh = false := by rw [e7]; exact upd_self _ _ _
  have hwn : s.wr h hh = none := by
    rcases k.sl h hh (.inr (by rw [hri]; simp)) with h1 | h1
    · exact h1.1
    · rw [hav] at h1; cases h1.2
  have hlive : ∀ b c, Live s' b c ↔ Live s b c ∧ ¬ (b = h ∧ c = hh) := by
    intro b c
    simp only [Live, e1.2.2.2.2.1, (hbu b).1, (hbu b).2.1, e5]
    by_cases h' : b = h ∧ c = hh
    · rw [h'.1, h'.2, upd2_self]; simp; have := hrk.1; omega
    · rw [upd2_other _ _ h']; simp [h']
  refine inv_slot (s := s) (s' := s') (i := i) (b := h) k hf e1 hrk.2 e8 (by rw [e7]) ?_ ?_ ?_ ?_ ?_ ?_ ?_ ?_ ?_ ?_ hlk hrole hheld ?_ ?_
  · intro _; exact ⟨(hbu h).1, (hbu h).2.1⟩
  · intro hc
    rw [(hbu h).1, (hbu h).2.1]
    have := k.tl h hc; have := k.ht h hc
    refine ⟨Nat.le_refl _, by omega, by omega, fun _ => rfl, fun _ => rfl, fun _ => rfl, fun _ => ⟨Nat.le_refl _, by omega⟩⟩
  · intro j _ _
    exact ⟨(hbu h).1, fun c hc hr => by rw [(hbu h).2.2.1]⟩
  · intro b' c j hj hw
    rw [e3, (hbu b').2.2.1]; exact ⟨rfl, rfl⟩
  · intro b' c j hj hw
    rw [e3]
    refine ⟨rfl, fun h1 => ?_⟩
    rw [(hbu b').2.2.2 c]
    · exact h1
    · rintro ⟨h1, h2⟩; rw [h1, h2, hri] at hw; cases hw; exact hj rfl
  · intro b c hl
    have := (hlive b c).1 hl
    rw [(hbu b).2.2.1, e3, e4, (hbu b).2.2.2 c this.2]
    exact k.sl b c this.1
  · intro b c hl
    by_cases h' : b = h ∧ c = hh
    · rw [h'.1, h'.2, e4]; exact ⟨hav', hwn⟩
    · rw [(hbu b).2.2.2 c h', e4]
      exact k.sd b c (fun h => hl ((hlive b c).2 ⟨h, h'⟩))
  · intro b' c hr
    left
    rw [e5] at hr
    by_cases h' : b' = h ∧ c = hh
    · rw [h'.1, h'.2, upd2_self] at hr; exact absurd rfl hr
    · rw [upd2_other _ _ h'] at hr
      refine ⟨hr, fun h => ?_⟩
      rw [(hbu _).1, ← h]; exact (k.rdk b' c hr).1
  · intro b c j
    rw [e5, upd_apply]
    by_cases h' : b = h ∧ c = hh
    · rw [h'.1, h'.2, upd2_self]
      split
      · rw [hrd.2]; simp
      · rename_i h'
        rw [← k.rd, hri]; simp; exact fun h => h' h.symm
    · rw [upd2_other _ _ h', k.rd]
      split
      · rename_i h2
        rw [h2, hrd.1, hrd.2]; simp; exact fun h1 h2 => h' ⟨h1.symm, h2.symm⟩
      · rfl
  · intro b c j
    rw [e4, k.wr, upd_apply]
    split
    · rename_i h; rw [h, hwr.1, hwr.2]
    · rfl
  · intro _ _; exact hloc s'
  · intro q h1 h2 h3
    obtain ⟨q', h4, h5, h6, h7⟩ := hleg q h1 h3
    refine ⟨q', e6 ▸ h4, ?_, by rw [e3]; exact h6, h7⟩
    rw [h5, h2, e3, e1.2.2.2.1]
    exact (cont_congr (fun b _ => ⟨(hbu b).1, (hbu b).2.1, fun _ _ _ => rfl⟩)).symm

end Queue
end Salticidae
