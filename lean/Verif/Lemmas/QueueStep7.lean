import Verif.Lemmas.QueueStep6
/-!
Rewinding: a block is put at the front of the queue, an element is put back.
-/
namespace Salticidae
namespace Queue
open FreeList (upd upd_apply upd_self upd_other)

variable {α : Type} [DecidableEq α]

/-- A block is put at the front. -/
theorem inv_front {B : Nat} {m : Mode} {s : St α} {i n : Nat} {e : α} (hB : 0 < B) (k : Inv B m s) {r : FreeList.Res} (hf : s.fl.pc i = .ret r)
    (hp : s.pc i = .w7 e n) :
    Inv B m ((St.setStat { s with qhead := n, chain := n :: s.chain } n .chain).setPc i (.w8 e)) := by
  have hl := k.loc i
  have hm := k.role i
  rw [hp] at hl hm
  have hm : m = .single i := hm
  obtain ⟨hz, hn, hnh, hnt, hnx⟩ := hl
  have hnc : n ∉ s.chain := fun hx => by rw [(k.mem n).1 hx] at hn; cases hn
  obtain ⟨l, hc, hnl⟩ := chain_eq k
  have hal : n < s.fl.alloc := alloc_of k (by rw [hn]; simp)
  have hne : s.chain ≠ [] := by rw [hc]; simp
  generalize hs' : (St.setStat { s with qhead := n, chain := n :: s.chain } n .chain).setPc i (.w8 e) = s'
  have e1 : s'.fl = s.fl ∧ s'.blk = s.blk ∧ s'.qtail = s.qtail ∧ s'.log = s.log ∧ s'.seen = s.seen ∧ s'.slot = s.slot ∧ s'.wr = s.wr ∧ s'.rd = s.rd ∧ s'.lk = s.lk ∧ s'.hid = s.hid := by
    rw [← hs']; exact ⟨rfl, rfl, rfl, rfl, rfl, rfl, rfl, rfl, rfl, rfl⟩
  obtain ⟨e1, e2, e3, e4, e5, e6, e7, e8, e9, e10⟩ := e1
  have e11 : s'.chain = n :: s.chain := by rw [← hs']; rfl
  have e12 : s'.stat = upd s.stat n .chain := by rw [← hs']; rfl
  have e13 : s'.qhead = n := by rw [← hs']; rfl
  have e14 : s'.pc = upd s.pc i (.w8 e) := by rw [← hs']; rfl
  clear hs'
  have hch : ∀ u, s'.stat u = .chain ↔ s.stat u = .chain ∨ u = n := by
    intro u; rw [e12, upd_apply]; split
    · rename_i e; simp [e]
    · rename_i e; simp [e]
  have hsp : ∀ u, Spent B s' u ↔ Spent B s u := by
    intro u
    simp only [Spent, e2, e12, e1]
    by_cases e : u = n
    · subst e; simp [hn]
    · rw [upd_other _ _ e]
  have hun : ∀ u, Unmarked B s u → Unmarked B s' u := by
    intro u hu; exact ⟨(hsp u).2 hu.1, by rw [e1]; exact hu.2⟩
  have hlive : ∀ b c, Live s' b c ↔ Live s b c := by
    intro b c
    simp only [Live, hch, e2, e8]
    constructor
    · rintro (⟨h1 | h1, h2⟩ | h1)
      · exact .inl ⟨h1, h2⟩
      · rw [h1, hnt, hnh] at h2; omega
      · exact .inr h1
    · rintro (h1 | h1)
      · exact .inl ⟨.inl h1.1, h1.2⟩
      · exact .inr h1
  have hg' : Glob B s' := by
    refine ⟨e1 ▸ k.fl, e1 ▸ k.bad, ?_, ?_, ?_, ?_, ?_, ?_, ?_, ?_, ?_, ?_, ?_, by rw [e5, e3]; exact k.qs, ?_, ?_, ?_, ?_, ?_, ?_⟩
    · rw [e11, e13]; rfl
    · rw [e11, e2]
      have := k.link
      rw [hc] at this ⊢
      exact ⟨hnx, this⟩
    · rw [e11]; exact List.nodup_cons.2 ⟨hnc, k.nd⟩
    · intro u; rw [e11, hch, List.mem_cons, k.mem u]; exact Or.comm
    · intro u hu hx
      rw [e2] at hx ⊢
      rcases (hch u).1 hu with h1 | h1
      · exact k.full u h1 hx
      · rw [h1]; exact hnt
    · intro u hu
      rw [e2]
      rcases (hch u).1 hu with h1 | h1
      · exact k.tl u h1
      · rw [h1, hnt]; exact Nat.le_refl _
    · intro u hu
      rw [e11] at hu
      rw [e2]
      have hu' : u ∈ s.chain := hu
      by_cases h : u = s.qhead
      · rw [h]; exact hz
      · rw [hc] at hu'
        rcases List.mem_cons.1 hu' with h1 | h1
        · exact absurd h1 h
        · exact k.zero u (by rw [hc]; exact h1)
    · intro u hu
      rw [e2]
      rcases (hch u).1 hu with h1 | h1
      · exact k.ht u h1
      · rw [h1, hnt, hnh]; exact Nat.le_refl _
    · intro u hu
      rw [e1] at hu ⊢
      rw [e12, upd_apply]
      split
      · rename_i e
        have := k.st u hu
        rw [e, hn] at this; rw [e]; simpa using this
      · exact k.st u hu
    · intro u hu
      rw [e1] at hu
      rw [e12, e5, upd_other _ _ (by omega)]
      exact k.un u hu
    · rw [e9, e11, e3]
      intro hx
      rw [List.getLast?_cons, k.qt1 hx]; rfl
    · intro u j hu
      rw [e10] at hu
      rw [e2, e1, e5]
      have := k.hid u j hu
      exact ⟨(hch u).2 (.inl this.1), this.2⟩
    · intro u hs hfr
      rw [e5] at hs; rw [e1] at hfr
      rcases k.fr u hs hfr with h1 | h1
      · exact .inl ((hch u).2 (.inl h1))
      · exact .inr (hun u h1)
    · intro u hu hfr
      rw [e1] at hu ⊢
      apply k.fz u hu
      rw [e12, upd_apply] at hfr
      split at hfr
      · cases hfr
      · exact hfr
    · intro b c hl; rw [e7, e6, e2]; exact k.sl b c ((hlive b c).1 hl)
    · intro b c hl; rw [e7, e2]; exact k.sd b c (fun hx => hl ((hlive b c).2 hx))
    · intro b c hr
      rw [e8] at hr
      have := k.rdk b c hr
      rw [e2]
      refine ⟨this.1, ?_⟩
      rcases this.2 with h1 | h1
      · exact .inl ((hch b).2 (.inl h1))
      · exact .inr ((hsp b).2 h1)
  refine inv_mk (s := s) (i := i) k hg' (fun j hj => by rw [e14]; exact upd_other _ _ hj) (fun _ _ => by rw [e1]) (fun _ _ => by rw [e1]) ?_ ?_ ?_ ?_ ?_ ?_ ?_ ?_ ?_ (leg_same e4 ?_ ?_)
  · intro j hj
    have hmj : m ≠ .single j := by rw [hm]; intro h; cases h; exact hj rfl
    refine ⟨fun _ hu => by rw [e1] at hu; exact .inl hu, fun _ _ hu => by rw [e1] at hu; exact .inl hu, ?_, ?_, (fun h => by rw [hm] at h; cases h), fun u _ => by rw [e2]; exact ⟨Nat.le_refl _, id⟩,
      fun u x hu hx => by rw [e2]; exact hx, (fun h => by rw [hm] at h; cases h),
      fun b c _ => by rw [e6, e2]; exact ⟨rfl, rfl⟩, fun b c _ => by rw [e6, e2]; exact ⟨rfl, id⟩, fun _ hx => by rw [e5]; exact hx, fun u hu => by rw [e10, e1]; exact ⟨hu, rfl⟩, ?_,
      fun h => absurd h hmj, fun h => absurd h hmj, fun h => absurd h hmj⟩
    · intro u hu
      have h1 : u ≠ n := fun e => by rw [e, hn] at hu; cases hu; exact hj rfl
      rw [e12, e2, e1, upd_other _ _ h1]; exact ⟨hu, rfl, rfl⟩
    · intro u _ hgu
      rcases hgu with h1 | h1
      · exact .inl ⟨(hch u).2 (.inl h1.1), by rw [e10]; exact h1.2⟩
      · exact .inr ((hsp u).2 h1)
    · intro _ _ u _ h8 h9
      rw [e1]
      refine ⟨h8, ?_⟩
      rcases h9 with h9 | h9
      · exact .inl ((hch u).2 (.inl h9))
      · exact .inr (hun u h9)
  · intro j n' hx
    rw [e9] at hx
    have := k.qt2 j n' hx
    have hji : j ≠ i := by
      intro e; rw [e, hp] at this; cases this.2.2
    rw [e11, e10, e14, e3, upd_other _ _ hji, List.getLast?_cons, this.1]
    exact ⟨rfl, this.2⟩
  · intro j t' n' hx
    rw [e14, upd_apply] at hx
    rw [e9]
    split at hx
    · cases hx
    · exact k.lk j t' n' hx
  · have := k.rd; rw [e8, e14]; simp only [upd_apply]
    intro b c j; split
    · rename_i e; rw [this, e, hp]; rfl
    · exact this b c j
  · have := k.wr; rw [e7, e14]; simp only [upd_apply]
    intro b c j; split
    · rename_i e; rw [this, e, hp]; rfl
    · exact this b c j
  · rw [e14, upd_self]; exact hm
  · rw [e1]; exact no_ref hf
  · rw [e1, e14, upd_self, k.held i, hp]; rfl
  · rw [e14, upd_self]
    show (s'.blk s'.qhead).head ≠ 0
    rw [e13, e2, hnh]; omega
  · rw [e6, e11, e2]
    exact cont_nothing (by rw [hnt, hnh]; exact Nat.le_refl _)
  · rw [e14, upd_self, hp]; rfl

/-- Nobody reads below the head while the consumer is rewinding. -/
theorem below_dead {B : Nat} {m : Mode} {s : St α} {i h c : Nat} (k : Inv B m s) (hm : m = .single i) (hrd : (s.pc i).reads = none)
    (hc : c < (s.blk h).head) : s.rd h c = none ∧ ¬ Live s h c := by
  have h1 : s.rd h c = none := by
    cases hx : s.rd h c with
    | none => rfl
    | some j =>
      have := rd_single k hm hx
      subst this
      have := (k.rd h c j).1 hx
      rw [hrd] at this; cases this
  refine ⟨h1, ?_⟩
  rintro (h2 | h2)
  · omega
  · exact h2 h1

/-- The element is written below the head. -/
theorem inv_rwrite {B : Nat} {m : Mode} {s : St α} {i h hh : Nat} {e : α} (k : Inv B m s) {r : FreeList.Res} (hf : s.fl.pc i = .ret r)
    (hp : s.pc i = .w10 e h hh) :
    Inv B m ((s.setBlk h { s.blk h with elem := upd (s.blk h).elem hh (some e) }).setPc i (.w11 e h hh)) := by
  have hl := k.loc i
  have hm := k.role i
  rw [hp] at hl hm
  have hm : m = .single i := hm
  obtain ⟨hq, hhd⟩ := hl
  have hst : s.stat h = .chain := hq ▸ head_chain k
  have hbd := below_dead k hm (by rw [hp]; rfl) (show hh < (s.blk h).head by omega)
  have hsd := k.sd h hh hbd.2
  generalize hs' : (s.setBlk h { s.blk h with elem := upd (s.blk h).elem hh (some e) }).setPc i (.w11 e h hh) = s'
  have e1 : s'.fl = s.fl ∧ s'.qhead = s.qhead ∧ s'.qtail = s.qtail ∧ s'.chain = s.chain ∧ s'.stat = s.stat ∧ s'.seen = s.seen ∧ s'.lk = s.lk ∧ s'.hid = s.hid ∧
      s'.pc = upd s.pc i (.w11 e h hh) := by rw [← hs']; exact ⟨rfl, rfl, rfl, rfl, rfl, rfl, rfl, rfl, rfl⟩
  have e2 : s'.blk = upd s.blk h { s.blk h with elem := upd (s.blk h).elem hh (some e) } ∧ s'.slot = s.slot ∧ s'.wr = s.wr ∧ s'.rd = s.rd ∧ s'.log = s.log := by
    rw [← hs']; exact ⟨rfl, rfl, rfl, rfl, rfl⟩
  clear hs'
  obtain ⟨e2, e3, e4, e5, e6⟩ := e2
  have e7 : s'.blk h = { s.blk h with elem := upd (s.blk h).elem hh (some e) } := by rw [e2, upd_self]
  have e8 : ∀ u, u ≠ h → s'.blk u = s.blk u := by rw [e2]; exact fun u hu => upd_other _ _ hu
  have hbu : ∀ u, (s'.blk u).head = (s.blk u).head ∧ (s'.blk u).tail = (s.blk u).tail ∧ (s'.blk u).avail = (s.blk u).avail ∧
      ∀ c, ¬ (u = h ∧ c = hh) → (s'.blk u).elem c = (s.blk u).elem c := by
    intro u
    by_cases h' : u = h
    · subst h'; rw [e7]; refine ⟨rfl, rfl, rfl, fun c hc => upd_other _ _ (by simpa using hc)⟩
    · rw [e8 u h']; exact ⟨rfl, rfl, rfl, fun _ _ => rfl⟩
  have hlive : ∀ b c, Live s' b c ↔ Live s b c := by
    intro b c
    simp only [Live, e1.2.2.2.2.1, e5, (hbu b).1, (hbu b).2.1]
  refine inv_slot (s := s) (s' := s') (i := i) (b := h) k hf e1 (.inl hst) e8 (by rw [e7]) ?_ ?_ ?_ ?_ ?_ ?_ ?_ ?_ ?_ ?_ ?_ hm ?_ ?_ ?_
  · intro _; exact ⟨(hbu h).1, (hbu h).2.1⟩
  · intro hc
    rw [(hbu h).1, (hbu h).2.1]
    have := k.tl h hc; have := k.ht h hc
    refine ⟨Nat.le_refl _, by omega, by omega, fun _ => rfl, fun _ => rfl, fun _ => rfl, fun _ => ⟨Nat.le_refl _, by omega⟩⟩
  · intro j hj hm'
    rw [hm] at hm'; cases hm'; exact absurd rfl hj
  · intro b' c j hj hw
    rw [e3]
    refine ⟨rfl, (hbu b').2.2.2 c ?_⟩
    rintro ⟨h1, h2⟩; rw [h1, h2, hsd.2] at hw; cases hw
  · intro b' c j hj hw
    rw [e3, (hbu b').2.2.1]; exact ⟨rfl, id⟩
  · intro b c hl
    rw [(hbu b).2.2.1, e3, e4]
    have hl := (hlive b c).1 hl
    rw [(hbu b).2.2.2 c]
    · exact k.sl b c hl
    · rintro ⟨h1, h2⟩; rw [h1, h2] at hl; exact hbd.2 hl
  · intro b c hl
    rw [(hbu b).2.2.1, e4]
    exact k.sd b c (fun h => hl ((hlive b c).2 h))
  · intro b' c hr
    left
    rw [e5] at hr
    refine ⟨hr, fun h => ?_⟩
    rw [(hbu _).1, ← h]; exact (k.rdk b' c hr).1
  · intro b c j
    rw [e5, k.rd, upd_apply]
    split
    · rename_i h; rw [h, hp]; rfl
    · rfl
  · intro b c j
    rw [e4, k.wr, upd_apply]
    split
    · rename_i h; rw [h, hp]; rfl
    · rfl
  · rw [hp]; exact ⟨rfl, rfl⟩
  · rw [hp]; rfl
  · intro hgd _
    refine ⟨by rw [e1.2.1]; exact hq, by rw [(hbu h).1]; exact hhd, ?_⟩
    rw [e7]; exact upd_self _ _ _
  · have := leg_same (s := s) (s' := s') (i := i) e6 ?_ ?_
    · simpa only [e1.2.2.2.2.2.2.2.2, upd_self] using this
    · rw [e3, e1.2.2.2.1]
      exact cont_congr (fun b _ => ⟨(hbu b).1, (hbu b).2.1, fun _ _ _ => rfl⟩)
    · rw [e1.2.2.2.2.2.2.2.2, upd_self, hp]; rfl

/-- The element below the head is made available. -/
theorem inv_ravail {B : Nat} {m : Mode} {s : St α} {i h hh : Nat} {e : α} (k : Inv B m s) {r : FreeList.Res} (hf : s.fl.pc i = .ret r)
    (hp : s.pc i = .w11 e h hh) :
    Inv B m { s.setBlk h { s.blk h with avail := upd (s.blk h).avail hh true } with
      slot := upd2 s.slot h hh (some e)
      rd := upd2 s.rd h hh (some i)
      pc := upd s.pc i (.w12 e h hh) } := by
  have hl := k.loc i
  have hm := k.role i
  rw [hp] at hl hm
  have hm : m = .single i := hm
  obtain ⟨hq, hhd, hel⟩ := hl
  have hst : s.stat h = .chain := hq ▸ head_chain k
  have hbd := below_dead k hm (by rw [hp]; rfl) (show hh < (s.blk h).head by omega)
  have hsd := k.sd h hh hbd.2
  generalize hs' : ({ s.setBlk h { s.blk h with avail := upd (s.blk h).avail hh true } with
      slot := upd2 s.slot h hh (some e)
      rd := upd2 s.rd h hh (some i)
      pc := upd s.pc i (.w12 e h hh) } : St α) = s'
  have e1 : s'.fl = s.fl ∧ s'.qhead = s.qhead ∧ s'.qtail = s.qtail ∧ s'.chain = s.chain ∧ s'.stat = s.stat ∧ s'.seen = s.seen ∧ s'.lk = s.lk ∧ s'.hid = s.hid ∧
      s'.pc = upd s.pc i (.w12 e h hh) := by rw [← hs']; exact ⟨rfl, rfl, rfl, rfl, rfl, rfl, rfl, rfl, rfl⟩
  have e2 : s'.blk = upd s.blk h { s.blk h with avail := upd (s.blk h).avail hh true } ∧ s'.slot = upd2 s.slot h hh (some e) ∧ s'.wr = s.wr ∧ s'.rd = upd2 s.rd h hh (some i) ∧ s'.log = s.log := by
    rw [← hs']; exact ⟨rfl, rfl, rfl, rfl, rfl⟩
  clear hs'
  obtain ⟨e2, e3, e4, e5, e6⟩ := e2
  have e7 : s'.blk h = { s.blk h with avail := upd (s.blk h).avail hh true } := by rw [e2, upd_self]
  have e8 : ∀ u, u ≠ h → s'.blk u = s.blk u := by rw [e2]; exact fun u hu => upd_other _ _ hu
  have hbu : ∀ u, (s'.blk u).head = (s.blk u).head ∧ (s'.blk u).tail = (s.blk u).tail ∧ (s'.blk u).elem = (s.blk u).elem ∧
      ∀ c, ¬ (u = h ∧ c = hh) → (s'.blk u).avail c = (s.blk u).avail c := by
    intro u
    by_cases h' : u = h
    · subst h'; rw [e7]; refine ⟨rfl, rfl, rfl, fun c hc => upd_other _ _ (by simpa using hc)⟩
    · rw [e8 u h']; exact ⟨rfl, rfl, rfl, fun _ _ => rfl⟩
  have hav' : (s'.blk h).avail hh = true := by rw [e7]; exact upd_self _ _ _
  have hlive : ∀ b c, Live s' b c ↔ Live s b c ∨ (b = h ∧ c = hh) := by
    intro b c
    simp only [Live, e1.2.2.2.2.1, (hbu b).1, (hbu b).2.1, e5]
    by_cases h' : b = h ∧ c = hh
    · rw [h'.1, h'.2, upd2_self]; simp
    · rw [upd2_other _ _ h']; simp [h']
  refine inv_slot (s := s) (s' := s') (i := i) (b := h) k hf e1 (.inl hst) e8 (by rw [e7]) ?_ ?_ ?_ ?_ ?_ ?_ ?_ ?_ ?_ ?_ ?_ hm ?_ ?_ ?_
  · intro _; exact ⟨(hbu h).1, (hbu h).2.1⟩
  · intro hc
    rw [(hbu h).1, (hbu h).2.1]
    have := k.tl h hc; have := k.ht h hc
    refine ⟨Nat.le_refl _, by omega, by omega, fun _ => rfl, fun _ => rfl, fun _ => rfl, fun _ => ⟨Nat.le_refl _, by omega⟩⟩
  · intro j hj hm'
    rw [hm] at hm'; cases hm'; exact absurd rfl hj
  · intro b' c j hj hw
    have : ¬ (b' = h ∧ c = hh) := by rintro ⟨h1, h2⟩; rw [h1, h2, hsd.2] at hw; cases hw
    rw [e3, upd2_other _ _ this, (hbu b').2.2.1]; exact ⟨rfl, rfl⟩
  · intro b' c j hj hw
    have : ¬ (b' = h ∧ c = hh) := by rintro ⟨h1, h2⟩; rw [h1, h2, hbd.1] at hw; cases hw
    rw [e3, upd2_other _ _ this, (hbu b').2.2.2 c this]; exact ⟨rfl, id⟩
  · intro b c hl
    rw [(hbu b).2.2.1, e3, e4]
    by_cases h' : b = h ∧ c = hh
    · rw [h'.1, h'.2, upd2_self]
      exact .inl ⟨hsd.2, hav', hel⟩
    · rw [upd2_other _ _ h', (hbu b).2.2.2 c h']
      rcases (hlive b c).1 hl with h1 | h1
      · exact k.sl b c h1
      · exact absurd h1 h'
  · intro b c hl
    have h1 : ¬ Live s b c ∧ ¬ (b = h ∧ c = hh) := ⟨fun h => hl ((hlive b c).2 (.inl h)), fun h => hl ((hlive b c).2 (.inr h))⟩
    rw [(hbu b).2.2.2 c h1.2, e4]
    exact k.sd b c h1.1
  · intro b' c hr
    by_cases h' : b' = h ∧ c = hh
    · right; rw [(hbu h).1]; exact ⟨h'.1, by omega⟩
    · left
      rw [e5, upd2_other _ _ h'] at hr
      refine ⟨hr, fun h => ?_⟩
      rw [(hbu _).1, ← h]; exact (k.rdk b' c hr).1
  · intro b c j
    rw [e5, upd_apply]
    by_cases h' : b = h ∧ c = hh
    · rw [h'.1, h'.2, upd2_self]
      split
      · rename_i h'; rw [h']; simp [Pc.reads]
      · rename_i h'
        rw [← k.rd, hbd.1]; simp; exact fun h => h' h.symm
    · rw [upd2_other _ _ h', k.rd]
      split
      · rename_i h2
        rw [h2, hp]; simp [Pc.reads]; exact fun h1 h2 => h' ⟨h1.symm, h2.symm⟩
      · rfl
  · intro b c j
    rw [e4, k.wr, upd_apply]
    split
    · rename_i h; rw [h, hp]; rfl
    · rfl
  · rw [hp]; exact ⟨rfl, rfl⟩
  · rw [hp]; rfl
  · intro hgd _
    exact ⟨by rw [e1.2.1]; exact hq, by rw [(hbu h).1]; exact hhd, by rw [e3, upd2_self], hav'⟩
  · have := leg_same (s := s) (s' := s') (i := i) e6 ?_ ?_
    · simpa only [e1.2.2.2.2.2.2.2.2, upd_self] using this
    · rw [e3, e1.2.2.2.1]
      refine cont_congr (fun b _ => ⟨(hbu b).1, (hbu b).2.1, fun c h1 h2 => upd2_other _ _ ?_⟩)
      rintro ⟨h3, h4⟩
      rw [h3] at h1; omega
    · rw [e1.2.2.2.2.2.2.2.2, upd_self, hp]; rfl

/-- The element is put back. -/
theorem inv_put {B : Nat} {m : Mode} {s : St α} {i h hh : Nat} {e : α} (k : Inv B m s) {r : FreeList.Res} (hf : s.fl.pc i = .ret r)
    (hp : s.pc i = .w12 e h hh) :
    Inv B m { (s.setBlk h { s.blk h with head := hh }).rcd (.rewind i e) with rd := upd2 s.rd h hh none, pc := upd s.pc i .eD } := by
  have hl := k.loc i
  have hm := k.role i
  rw [hp] at hl hm
  have hm : m = .single i := hm
  obtain ⟨hq, hhd, hslo, hav⟩ := hl
  have hst : s.stat h = .chain := hq ▸ head_chain k
  have hri : s.rd h hh = some i := (k.rd h hh i).2 (by rw [hp]; rfl)
  obtain ⟨l, hc, hnl⟩ := chain_eq k
  have hother : ∀ b c, s.rd b c ≠ none → b = h ∧ c = hh := by
    intro b c hx
    cases hy : s.rd b c with
    | none => exact absurd hy hx
    | some j =>
      have := rd_single k hm hy
      subst this
      have := (k.rd b c j).1 hy
      rw [hp] at this
      simp only [Pc.reads, Option.some.injEq, Prod.mk.injEq] at this
      exact ⟨this.1.symm, this.2.symm⟩
  generalize hs' : ({ (s.setBlk h { s.blk h with head := hh }).rcd (.rewind i e) with rd := upd2 s.rd h hh none, pc := upd s.pc i .eD } : St α) = s'
  have e1 : s'.fl = s.fl ∧ s'.qhead = s.qhead ∧ s'.qtail = s.qtail ∧ s'.chain = s.chain ∧ s'.stat = s.stat ∧ s'.seen = s.seen ∧ s'.lk = s.lk ∧ s'.hid = s.hid ∧
      s'.pc = upd s.pc i .eD := by rw [← hs']; exact ⟨rfl, rfl, rfl, rfl, rfl, rfl, rfl, rfl, rfl⟩
  have e2 : s'.blk = upd s.blk h { s.blk h with head := hh } ∧ s'.slot = s.slot ∧ s'.wr = s.wr ∧ s'.rd = upd2 s.rd h hh none ∧ s'.log = s.log ++ [.rewind i e] := by
    rw [← hs']; exact ⟨rfl, rfl, rfl, rfl, rfl⟩
  clear hs'
  obtain ⟨e2, e3, e4, e5, e6⟩ := e2
  have e7 : s'.blk h = { s.blk h with head := hh } := by rw [e2, upd_self]
  have e8 : ∀ u, u ≠ h → s'.blk u = s.blk u := by rw [e2]; exact fun u hu => upd_other _ _ hu
  have hbu : ∀ u, (s'.blk u).tail = (s.blk u).tail ∧ (s'.blk u).elem = (s.blk u).elem ∧ (s'.blk u).avail = (s.blk u).avail := by
    intro u
    by_cases h' : u = h
    · subst h'; rw [e7]; exact ⟨rfl, rfl, rfl⟩
    · rw [e8 u h']; exact ⟨rfl, rfl, rfl⟩
  have hht := k.ht h hst
  have htl := k.tl h hst
  have hlive : ∀ b c, Live s' b c ↔ Live s b c := by
    intro b c
    simp only [Live, e1.2.2.2.2.1, (hbu b).1]
    by_cases h' : b = h
    · rw [h', e7, e5]; simp only [hst, hhd]
      by_cases h2 : c = hh
      · rw [h2, upd2_self, hri]; simp; omega
      · rw [upd2_other _ _ (by simp [h2])]; grind
    · rw [e8 b h', e5, upd2_other _ _ (by simp [h'])]
  refine inv_slot (s := s) (s' := s') (i := i) (b := h) k hf e1 (.inl hst) e8 (by rw [e7]) ?_ ?_ ?_ ?_ ?_ ?_ ?_ ?_ ?_ ?_ ?_ trivial ?_ ?_ ?_
  · intro hx; have := hx.1; rw [hst] at this; cases this
  · intro _
    rw [(hbu h).1, e7]
    refine ⟨Nat.le_refl _, by omega, by simp only; omega, fun hx => ?_, fun _ => rfl, fun _ => rfl, fun h => by rw [hm] at h; cases h⟩
    rw [hc, hq] at hx; exact absurd hx hnl
  · intro j hj hm'
    rw [hm] at hm'; cases hm'; exact absurd rfl hj
  · intro b' c j hj hw
    rw [e3, (hbu b').2.1]; exact ⟨rfl, rfl⟩
  · intro b' c j hj hw
    rw [e3, (hbu b').2.2]; exact ⟨rfl, id⟩
  · intro b c hl
    rw [(hbu b).2.1, (hbu b).2.2, e3, e4]
    exact k.sl b c ((hlive b c).1 hl)
  · intro b c hl
    rw [(hbu b).2.2, e4]
    exact k.sd b c (fun h => hl ((hlive b c).2 h))
  · intro b' c hr
    rw [e5] at hr
    by_cases h' : b' = h ∧ c = hh
    · rw [h'.1, h'.2, upd2_self] at hr; exact absurd rfl hr
    · rw [upd2_other _ _ h'] at hr; exact absurd (hother b' c hr) h'
  · intro b c j
    rw [e5, upd_apply]
    by_cases h' : b = h ∧ c = hh
    · rw [h'.1, h'.2, upd2_self]
      split
      · simp [Pc.reads]
      · rename_i h'
        rw [← k.rd, hri]; simp; exact fun h => h' h.symm
    · rw [upd2_other _ _ h', k.rd]
      split
      · rename_i h2
        rw [h2, hp]; simp [Pc.reads]; exact fun h1 h2 => h' ⟨h1.symm, h2.symm⟩
      · rfl
  · intro b c j
    rw [e4, k.wr, upd_apply]
    split
    · rename_i h; rw [h, hp]; rfl
    · rfl
  · rw [hp]; exact ⟨rfl, rfl⟩
  · rw [hp]; rfl
  · intro _ _; trivial
  · have hle := leg_event (s := s) (s' := s') (i := i) e6
    simp only [e1.2.2.2.2.2.2.2.2, upd_self] at hle
    apply hle
    intro q hqq hdd
    rw [hp] at hdd
    have hdd : q.doing i = .called (.rewind e) := hdd
    have hct := cont_put (blk := s.blk) (slot := s.slot) (b := h) (l := l) (x := { s.blk h with head := hh }) (hq ▸ hnl) (by simp only; omega) rfl hht
    refine ⟨{ q.set i (.done .yes) with q := e :: q.q }, ?_, ?_, ?_, ?_⟩
    · simp [Spec.Queue.after, hdd]
    · rw [e2, e3, e1.2.2.2.1, hc, ← hq]
      refine Eq.trans ?_ hct.symm
      show some e :: q.q.map some = _
      rw [hqq, hc, ← hq]
      congr 1; exact hslo.symm
    · simp [Spec.Queue.Q.set, Pc.doing]
    · intro j hj; simp [Spec.Queue.Q.set, hj]

end Queue
end Salticidae
