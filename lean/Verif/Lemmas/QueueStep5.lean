import Verif.Lemmas.QueueStep4
/-!
Places of a block are claimed, written, read and given back.
-/
namespace Salticidae
namespace Queue
open FreeList (upd upd_apply upd_self upd_other)

variable {α : Type} [DecidableEq α]

/-- Something happens to the places of block b. -/
theorem inv_slot {B : Nat} {m : Mode} {s s' : St α} {i b : Nat} {p : Pc α} (k : Inv B m s) {r : FreeList.Res} (hf : s.fl.pc i = .ret r)
    (e : s'.fl = s.fl ∧ s'.qhead = s.qhead ∧ s'.qtail = s.qtail ∧ s'.chain = s.chain ∧ s'.stat = s.stat ∧ s'.seen = s.seen ∧ s'.lk = s.lk ∧ s'.hid = s.hid ∧
      s'.pc = upd s.pc i p)
    (hb : s.stat b = .chain ∨ Spent B s b) (hne : ∀ u, u ≠ b → s'.blk u = s.blk u) (hnx : (s'.blk b).next = (s.blk b).next)
    (hsp : Spent B s b → (s'.blk b).head = (s.blk b).head ∧ (s'.blk b).tail = (s.blk b).tail)
    (hch : s.stat b = .chain → (s.blk b).tail ≤ (s'.blk b).tail ∧ (s'.blk b).tail ≤ B ∧ (s'.blk b).head ≤ (s'.blk b).tail ∧
      (b ∈ s.chain.tail → (s'.blk b).head = (s.blk b).head) ∧ ((s.blk b).next ≠ none → (s'.blk b).tail = (s.blk b).tail) ∧ (s.hid b ≠ none → (s'.blk b).tail = (s.blk b).tail) ∧
      (m = .multi → (s.blk b).head ≤ (s'.blk b).head ∧ (s'.blk b).head ≤ B))
    (hcon : ∀ j, j ≠ i → m = .single j → (s'.blk b).head = (s.blk b).head ∧ ∀ c, c < (s.blk b).head → s.rd b c = none → (s'.blk b).elem c = (s.blk b).elem c)
    (hw : ∀ b' c j, j ≠ i → s.wr b' c = some j → s'.slot b' c = s.slot b' c ∧ (s'.blk b').elem c = (s.blk b').elem c)
    (hr : ∀ b' c j, j ≠ i → s.rd b' c = some j → s'.slot b' c = s.slot b' c ∧ ((s.blk b').avail c = true → (s'.blk b').avail c = true))
    (sl : ∀ b k, Live s' b k → (s'.wr b k = none ∧ (s'.blk b).avail k = true ∧ (s'.blk b).elem k = s'.slot b k) ∨
      (s'.wr b k ≠ none ∧ (s'.blk b).avail k = false))
    (sd : ∀ b k, ¬ Live s' b k → (s'.blk b).avail k = false ∧ s'.wr b k = none)
    (rdk : ∀ b' k, s'.rd b' k ≠ none → s.rd b' k ≠ none ∧ (b' = b → k < (s'.blk b).head) ∨ b' = b ∧ k < (s'.blk b).head)
    (rd : ∀ b k j, s'.rd b k = some j ↔ (upd s.pc i p j).reads = some (b, k))
    (wr : ∀ b k j, s'.wr b k = some j ↔ (upd s.pc i p j).writes = some (b, k))
    (hlk : p.links = none ∧ (s.pc i).links = none)
    (role : p.role m i)
    (held : heldOf p (.ret r) = heldOf (s.pc i) (.ret r))
    (loc : (∀ u, Good B s u → Good B s' u) → (∀ u, MGood B s u → MGood B s' u) → Loc B s' i p)
    (leg : ∀ q, Spec.Queue.replay Spec.Queue.empty s.log = some q → q.q.map some = cont s.blk s.slot s.chain → q.doing i = (s.pc i).doing s.slot →
      ∃ q', Spec.Queue.replay Spec.Queue.empty s'.log = some q' ∧ q'.q.map some = cont s'.blk s'.slot s'.chain ∧
        q'.doing i = p.doing s'.slot ∧ ∀ j, j ≠ i → q'.doing j = q.doing j) : Inv B m s' := by
  obtain ⟨e1, e2, e3, e4, e5, e6, e7, e8, e9⟩ := e
  have hnext : ∀ u, (s'.blk u).next = (s.blk u).next := by
    intro u
    by_cases h : u = b
    · rw [h]; exact hnx
    · rw [hne u h]
  have hsp' : ∀ u, Spent B s u → Spent B s' u := by
    intro u hu
    refine ⟨by rw [e5]; exact hu.1, ?_⟩
    rw [hnext u, e1]
    by_cases h : u = b
    · rw [h] at hu ⊢
      rw [(hsp hu).1, (hsp hu).2]; exact hu.2
    · rw [hne u h]; exact hu.2
  have hgood : ∀ u, Good B s u → Good B s' u := by
    intro u hu
    rcases hu with h | h
    · left; rw [e5, e8]; exact h
    · right; exact hsp' u h
  have hmgood : ∀ u, MGood B s u → MGood B s' u := by
    intro u hu
    rcases hu with h | h
    · left; rw [e2]; exact h
    · right; exact hsp' u h
  have hun : ∀ u, Unmarked B s u → Unmarked B s' u := by
    intro u hu; exact ⟨hsp' u hu.1, by rw [e1]; exact hu.2⟩
  have hg' : Glob B s' := by
    refine ⟨e1 ▸ k.fl, e1 ▸ k.bad, by rw [e4, e2]; exact k.hd, ?_, by rw [e4]; exact k.nd, by rw [e4, e5]; exact k.mem, ?_, ?_, ?_, ?_, by rw [e1, e5]; exact k.st,
      by rw [e1, e5, e6]; exact k.un, by rw [e7, e4, e3]; exact k.qt1, by rw [e6, e3]; exact k.qs, ?_, ?_, by rw [e1, e5]; exact k.fz, sl, sd, ?_⟩
    · rw [e4]; exact linked_frame (fun u _ => hnext u) k.link
    · intro u hu hx
      rw [e5] at hu
      rw [hnext] at hx
      by_cases h : u = b
      · rw [h] at hu hx ⊢
        rw [(hch hu).2.2.2.2.1 hx]; exact k.full b hu hx
      · rw [hne u h]; exact k.full u hu hx
    · intro u hu
      rw [e5] at hu
      by_cases h : u = b
      · rw [h] at hu ⊢; exact (hch hu).2.1
      · rw [hne u h]; exact k.tl u hu
    · intro u hu
      rw [e4] at hu
      by_cases h : u = b
      · rw [h] at hu ⊢
        rw [(hch ((k.mem b).1 (List.mem_of_mem_tail hu))).2.2.2.1 hu]; exact k.zero b hu
      · rw [hne u h]; exact k.zero u hu
    · intro u hu
      rw [e5] at hu
      by_cases h : u = b
      · rw [h] at hu ⊢; exact (hch hu).2.2.1
      · rw [hne u h]; exact k.ht u hu
    · intro u j hu
      rw [e8] at hu
      obtain ⟨h1, h2, h3⟩ := k.hid u j hu
      rw [e5, e1, e6]
      refine ⟨h1, ?_, h3⟩
      by_cases h : u = b
      · rw [h] at hu h1 h2 ⊢
        rw [(hch h1).2.2.2.2.2.1 (by rw [hu]; simp)]; exact h2
      · rw [hne u h]; exact h2
    · intro u hs hfr
      rw [e6] at hs; rw [e1] at hfr
      rw [e5]
      rcases k.fr u hs hfr with h1 | h1
      · exact .inl h1
      · exact .inr (hun u h1)
    · intro u c hr
      by_cases h : u = b
      · rw [h] at hr ⊢
        refine ⟨?_, ?_⟩
        · rcases rdk b c hr with h1 | h1
          · exact h1.2 rfl
          · exact h1.2
        · rw [e5]
          rcases hb with h1 | h1
          · exact .inl h1
          · exact .inr (hsp' b h1)
      · rw [hne u h, e5]
        rcases rdk u c hr with h1 | h1
        · have := k.rdk u c h1.1
          refine ⟨this.1, ?_⟩
          rcases this.2 with h1 | h1
          · exact .inl h1
          · exact .inr (hsp' u h1)
        · exact absurd h1.1 h
  have hpi : s'.pc i = p := by rw [e9, upd_self]
  refine inv_mk (s := s) (i := i) k hg' (fun j hj => by rw [e9]; exact upd_other _ _ hj) (fun _ _ => by rw [e1]) (fun _ _ => by rw [e1]) ?_ ?_ ?_
    (by rw [e9]; exact rd) (by rw [e9]; exact wr) (by rw [hpi]; exact role) (by rw [e1]; exact no_ref hf) ?_ (by rw [hpi]; exact loc hgood hmgood) (by rw [hpi]; exact leg)
  · intro j hj
    refine ⟨fun _ hu => by rw [e1] at hu; exact .inl hu, fun _ _ hu => by rw [e1] at hu; exact .inl hu, fun u hu => ⟨by rw [e5]; exact hu, ?_, by rw [e1]⟩, fun u _ => hgood u, fun _ u _ => hmgood u, fun u hu => ?_,
      fun u x hu hx => by rw [hnext]; exact hx, fun hm u hu => ?_,
      fun b' c hx => hw b' c j hj hx, fun b' c hx => hr b' c j hj hx, fun _ hx => by rw [e6]; exact hx, fun n hn => by rw [e8, e1]; exact ⟨hn, rfl⟩, ?_, fun _ => e2, fun hm u hu => ?_, fun hm b' c hu hc hrd => ?_⟩
    · apply hne
      intro e; rw [e] at hu
      rcases hb with h1 | h1
      · rw [hu] at h1; cases h1
      · have := h1.1; rw [hu] at this; cases this
    · by_cases h : u = b
      · rw [h] at hu ⊢
        rcases hu with h1 | h1
        · have := hch h1
          exact ⟨this.1, fun hx => Nat.le_antisymm this.2.1 (hx ▸ this.1)⟩
        · rw [(hsp h1).2]; exact ⟨Nat.le_refl _, id⟩
      · rw [hne u h]; exact ⟨Nat.le_refl _, id⟩
    · by_cases h : u = b
      · rw [h] at hu ⊢
        rcases hu with h1 | h1
        · have := (hch h1).2.2.2.2.2.2 hm
          exact ⟨this.1, fun hx => Nat.le_antisymm this.2 (hx ▸ this.1)⟩
        · rw [(hsp h1).1]; exact ⟨Nat.le_refl _, id⟩
      · rw [hne u h]; exact ⟨Nat.le_refl _, id⟩
    · intro _ _ u _ h8 h9
      rw [e1, e5]
      refine ⟨h8, ?_⟩
      rcases h9 with h9 | h9
      · exact .inl h9
      · exact .inr (hun u h9)
    · by_cases h : u = b
      · rw [h]; exact (hcon j hj hm).1
      · rw [hne u h]
    · by_cases h : b' = b
      · rw [h] at hc hrd ⊢; exact (hcon j hj hm).2 c hc hrd
      · rw [hne b' h]
  · intro j n hx
    rw [e7] at hx
    have := k.qt2 j n hx
    rw [e4, e8, e9, e3]
    have hji : j ≠ i := by
      intro e; rw [e] at this; rw [hlk.2] at this; cases this.2.2
    rw [upd_other _ _ hji]; exact this
  · intro j t n hx
    rw [e9, upd_apply] at hx
    rw [e7]
    split at hx
    · rw [hlk.1] at hx; cases hx
    · exact k.lk j t n hx
  · rw [e1, hpi, hf, held, ← hf]; exact k.held i

theorem live_chain {s : St α} {b c : Nat} (h : s.stat b = .chain) : Live s b c ↔ ((s.blk b).head ≤ c ∧ c < (s.blk b).tail) ∨ s.rd b c ≠ none := by
  simp [Live, h]

theorem upd2_self {β : Type} (f : Nat → Nat → β) (b c : Nat) (x : β) : upd2 f b c x b c = x := by simp [upd2]
theorem upd2_other {β : Type} (f : Nat → Nat → β) {b c b' c' : Nat} (x : β) (h : ¬ (b' = b ∧ c' = c)) : upd2 f b c x b' c' = f b' c' := by
  simp only [upd2]; rw [if_neg h]

/-- A place is claimed. -/
theorem inv_claim {B : Nat} {m : Mode} {s : St α} {i t tt : Nat} {e : α} {unb : Bool} (k : Inv B m s) {r : FreeList.Res} (hf : s.fl.pc i = .ret r)
    (hp : s.pc i = .e15 e unb t tt) (htt : (s.blk t).tail = tt) :
    Inv B m { (s.setBlk t { s.blk t with tail := tt + 1 }).rcd (.enq i e) with
        slot := upd2 s.slot t tt (some e)
        wr := upd2 s.wr t tt (some i)
        pc := upd s.pc i (.e16 e unb t tt) } := by
  have hl := k.loc i
  rw [hp] at hl
  obtain ⟨hg, hlt⟩ := hl
  have hst : s.stat t = .chain ∧ s.hid t = none := by
    rcases hg with hg | hg
    · exact hg
    · have := hg.2.1; omega
  have hnx : (s.blk t).next = none := by
    cases hx : (s.blk t).next with
    | none => rfl
    | some y => have := k.full t hst.1 (by rw [hx]; simp); omega
  obtain ⟨_, hhid, hlast⟩ := good_last k hg hnx
  have hht := k.ht t hst.1
  have hnl : ¬ Live s t tt := by
    rw [live_chain hst.1]
    rintro (h1 | h1)
    · omega
    · have := (k.rdk t tt h1).1; omega
  have hsd := k.sd t tt hnl
  have hblk : ∀ u, u ≠ t → upd s.blk t { s.blk t with tail := tt + 1 } u = s.blk u := fun u hu => upd_other _ _ hu
  have hbt : upd s.blk t { s.blk t with tail := tt + 1 } t = { s.blk t with tail := tt + 1 } := upd_self _ _ _
  generalize hs' : ({ (s.setBlk t { s.blk t with tail := tt + 1 }).rcd (.enq i e) with
        slot := upd2 s.slot t tt (some e)
        wr := upd2 s.wr t tt (some i)
        pc := upd s.pc i (.e16 e unb t tt) } : St α) = s'
  have e1 : s'.fl = s.fl ∧ s'.qhead = s.qhead ∧ s'.qtail = s.qtail ∧ s'.chain = s.chain ∧ s'.stat = s.stat ∧ s'.seen = s.seen ∧ s'.lk = s.lk ∧ s'.hid = s.hid ∧
      s'.pc = upd s.pc i (.e16 e unb t tt) := by rw [← hs']; exact ⟨rfl, rfl, rfl, rfl, rfl, rfl, rfl, rfl, rfl⟩
  have e2 : s'.blk = upd s.blk t { s.blk t with tail := tt + 1 } ∧ s'.slot = upd2 s.slot t tt (some e) ∧ s'.wr = upd2 s.wr t tt (some i) ∧ s'.rd = s.rd ∧ s'.log = s.log ++ [.enq i e] := by
    rw [← hs']; exact ⟨rfl, rfl, rfl, rfl, rfl⟩
  clear hs'
  obtain ⟨e2, e3, e4, e5, e6⟩ := e2
  have e7 : s'.blk t = { s.blk t with tail := tt + 1 } := by rw [e2, hbt]
  have e8 : ∀ u, u ≠ t → s'.blk u = s.blk u := by rw [e2]; exact hblk
  have hlive : ∀ b c, Live s' b c ↔ Live s b c ∨ (b = t ∧ c = tt) := by
    intro b c
    simp only [Live, e1.2.2.2.2.1, e5]
    by_cases h : b = t
    · rw [h, e7, hst.1]; simp only [htt]; grind
    · rw [e8 b h]; simp [h]
  refine inv_slot (s := s) (s' := s') (i := i) (b := t) k hf e1 (.inl hst.1) e8 (by rw [e7]) ?_ ?_ ?_ ?_ ?_ ?_ ?_ ?_ ?_ ?_ ?_ trivial ?_ ?_ ?_
  · intro hx; have := hx.1; rw [hst.1] at this; cases this
  · intro _
    rw [e7]
    refine ⟨by simp only; omega, by simp only; omega, by simp only; omega, fun _ => rfl, fun hx => absurd hnx hx, fun hx => absurd hhid hx, fun _ => ⟨Nat.le_refl _, ?_⟩⟩
    simp only; omega
  · intro j _ _; rw [e7]; exact ⟨rfl, fun _ _ _ => rfl⟩
  · intro b' c j hj hw
    have : ¬ (b' = t ∧ c = tt) := by rintro ⟨h1, h2⟩; rw [h1, h2, hsd.2] at hw; cases hw
    rw [e3, upd2_other _ _ this]
    refine ⟨rfl, ?_⟩
    by_cases h : b' = t
    · rw [h, e7]
    · rw [e8 b' h]
  · intro b' c j hj hw
    have : ¬ (b' = t ∧ c = tt) := by
      rintro ⟨h1, h2⟩
      have := (k.rdk b' c (by rw [hw]; simp)).1
      rw [h1] at this; omega
    rw [e3, upd2_other _ _ this]
    refine ⟨rfl, ?_⟩
    by_cases h : b' = t
    · rw [h, e7]; exact id
    · rw [e8 b' h]; exact id
  · intro b c hl
    have hav : (s'.blk b).avail = (s.blk b).avail ∧ (s'.blk b).elem = (s.blk b).elem := by
      by_cases h : b = t
      · rw [h, e7]; exact ⟨rfl, rfl⟩
      · rw [e8 b h]; exact ⟨rfl, rfl⟩
    rw [hav.1, hav.2, e3, e4]
    by_cases h : b = t ∧ c = tt
    · right; rw [h.1, h.2, upd2_self]; exact ⟨by simp, hsd.1⟩
    · rw [upd2_other _ _ h, upd2_other _ _ h]
      rcases (hlive b c).1 hl with h1 | h1
      · exact k.sl b c h1
      · exact absurd h1 h
  · intro b c hl
    have h1 : ¬ Live s b c ∧ ¬ (b = t ∧ c = tt) := ⟨fun h => hl ((hlive b c).2 (.inl h)), fun h => hl ((hlive b c).2 (.inr h))⟩
    rw [e4, upd2_other _ _ h1.2]
    have := k.sd b c h1.1
    refine ⟨?_, this.2⟩
    by_cases h : b = t
    · rw [h] at this ⊢; rw [e7]; exact this.1
    · rw [e8 b h]; exact this.1
  · intro b' c hr
    left
    rw [e5] at hr
    refine ⟨hr, fun h => ?_⟩
    rw [e7, ← h]; exact (k.rdk b' c hr).1
  · intro b c j
    rw [e5, k.rd, upd_apply]
    split
    · rename_i h; rw [h, hp]; rfl
    · rfl
  · intro b c j
    rw [e4, upd_apply]
    by_cases h : b = t ∧ c = tt
    · rw [h.1, h.2, upd2_self]
      split
      · rename_i h; rw [h]; exact ⟨fun _ => rfl, fun _ => rfl⟩
      · rename_i h'
        rw [← k.wr, hsd.2]
        constructor
        · intro hx; cases hx; exact absurd rfl h'
        · intro hx; cases hx
    · rw [upd2_other _ _ h, k.wr]
      split
      · rename_i h'
        rw [h', hp]
        constructor
        · intro hx; cases hx
        · intro hx; simp only [Pc.writes, Option.some.injEq, Prod.mk.injEq] at hx; exact absurd ⟨hx.1.symm, hx.2.symm⟩ h
      · rfl
  · rw [hp]; exact ⟨rfl, rfl⟩
  · rw [hp]; rfl
  · intro hgd _
    refine ⟨hgd t hg, ?_⟩
    rw [e3, upd2_self]
  · have hle := leg_event (s := s) (s' := s') (i := i) e6
    simp only [e1.2.2.2.2.2.2.2.2, upd_self] at hle
    apply hle
    intro q hq hd
    rw [hp] at hd
    refine ⟨{ q.set i (.done .yes) with q := q.q ++ [e] }, ?_, ?_, ?_, ?_⟩
    · have hd' : q.doing i = .called (.enq e unb) := hd
      simp [Spec.Queue.after, hd']
    · rw [e2, e3, e1.2.2.2.1, ← htt]
      have := cont_add (blk := s.blk) (slot := s.slot) (t := t) (x := { s.blk t with tail := (s.blk t).tail + 1 }) (y := some e) rfl rfl hht k.nd hlast
      refine Eq.trans ?_ this.symm
      simp [hq]
    · simp [Spec.Queue.Q.set, Pc.doing]
    · intro j hj; simp [Spec.Queue.Q.set, hj]

end Queue
end Salticidae
