import Verif.Lemmas.QueueStep2
/-!
Steps that write to a block or link one.
-/
namespace Salticidae
namespace Queue
open FreeList (upd upd_apply upd_self upd_other)

variable {α : Type} [DecidableEq α]

/-- A thread writes to a block of its own. -/
theorem inv_own {B : Nat} {m : Mode} {s : St α} {i n : Nat} {p : Pc α} {x : Blk α} (k : Inv B m s) {r : FreeList.Res} (hf : s.fl.pc i = .ret r)
    (hn : s.stat n = .priv i) (hx : x.avail = (s.blk n).avail ∧ x.elem = (s.blk n).elem)
    (h1 : p.links = none ∧ (s.pc i).links = none) (h2 : p.reads = (s.pc i).reads) (h3 : p.writes = (s.pc i).writes) (h4 : p.role m i)
    (h5 : p.wants = none ∧ (s.pc i).wants = none ∧ p.refs = (s.pc i).refs)
    (h6 : (∀ u, Good B s u → Good B (s.setBlk n x) u ∧ u ≠ n) → Loc B (s.setBlk n x) i p) (h7 : p.doing s.slot = (s.pc i).doing s.slot) :
    Inv B m ((s.setBlk n x).setPc i p) := by
  have hne : ∀ u, s.stat u = .chain ∨ Spent B s u → u ≠ n := by
    rintro u (h | h) e
    · rw [e, hn] at h; cases h
    · rw [e] at h; have := h.1; rw [hn] at this; cases this
  have hb : ∀ u, s.stat u = .chain ∨ Spent B s u → (s.setBlk n x).blk u = s.blk u := fun u h => upd_other _ _ (hne u h)
  have hsp : ∀ u pc, Spent B { s.setBlk n x with pc := pc } u ↔ Spent B s u := by
    intro u pc
    by_cases e : u = n
    · subst e; simp only [Spent, St.setBlk, hn]; simp
    · simp only [Spent, St.setBlk, upd_other _ _ e]
  have hgood : ∀ u pc, Good B s u → Good B { s.setBlk n x with pc := pc } u := by
    intro u pc hg
    rcases hg with hg | hg
    · exact .inl hg
    · exact .inr ((hsp u pc).2 hg)
  have hlive : ∀ b c pc, Live { s.setBlk n x with pc := pc } b c ↔ Live s b c := by
    intro b c pc
    by_cases e : b = n
    · subst e; simp only [Live, St.setBlk, hn]; simp
    · simp only [Live, St.setBlk, upd_other _ _ e]
  have hav : ∀ u, ((s.setBlk n x).blk u).avail = (s.blk u).avail ∧ ((s.setBlk n x).blk u).elem = (s.blk u).elem := by
    intro u
    simp only [St.setBlk, upd_apply]
    split
    · rename_i e; rw [e]; exact hx
    · exact ⟨rfl, rfl⟩
  have hmem : ∀ u ∈ s.chain, (s.setBlk n x).blk u = s.blk u := fun u hu => hb u (.inl ((k.mem u).1 hu))
  have hg : Glob B ((s.setBlk n x).setPc i p) := by
    refine ⟨k.fl, k.bad, k.hd, ?_, k.nd, k.mem, ?_, ?_, ?_, ?_, k.st, k.un, k.qt1, k.qs, ?_, ?_, k.fz, ?_, ?_, ?_⟩
    · exact linked_frame (fun u hu => by rw [St.setPc, hmem u hu]) k.link
    · intro u hu; simp only [St.setPc]; rw [hb u (.inl hu)]; exact k.full u hu
    · intro u hu; simp only [St.setPc]; rw [hb u (.inl hu)]; exact k.tl u hu
    · intro u hu; simp only [St.setPc]; rw [hmem u (List.mem_of_mem_tail hu)]; exact k.zero u hu
    · intro u hu; simp only [St.setPc]; rw [hb u (.inl hu)]; exact k.ht u hu
    · intro u j hu
      have := k.hid u j hu
      simp only [St.setPc]; rw [hb u (.inl this.1)]; exact this
    · intro u hs hfr
      rcases k.fr u hs hfr with h | h
      · exact .inl h
      · exact .inr ⟨(hsp u _).2 h.1, h.2⟩
    · intro b c hl
      have := k.sl b c ((hlive b c _).1 hl)
      simp only [St.setPc]; rw [(hav b).1, (hav b).2]; exact this
    · intro b c hl
      have := k.sd b c (fun hx => hl ((hlive b c _).2 hx))
      simp only [St.setPc]; rw [(hav b).1]; exact this
    · intro b c hr
      have := k.rdk b c hr
      simp only [St.setPc]; rw [hb b this.2]
      refine ⟨this.1, ?_⟩
      rcases this.2 with h | h
      · exact .inl h
      · exact .inr ((hsp b _).2 h)
  refine inv_mk (s := s) (i := i) k hg (fun j hj => upd_other _ _ hj) (fun _ _ => rfl) (fun _ _ => rfl) ?_ ?_ ?_ ?_ ?_ ?_ ?_ ?_ ?_ (leg_same rfl ?_ ?_)
  · intro j hj
    refine ⟨fun _ hu => .inl hu, fun _ _ hu => .inl hu, ?_, fun u _ => hgood u _, ?_, fun u hu => ?_, fun u x' hu hx' => ?_, fun _ u hu => ?_, fun b c _ => ⟨rfl, ?_⟩,
      fun b c _ => ⟨rfl, ?_⟩, fun _ hx => hx, fun _ hx => ⟨hx, rfl⟩, ?_, fun _ => rfl, fun _ u hu => ?_, fun _ b c hb' _ _ => ?_⟩
    · intro u hu
      refine ⟨hu, ?_, rfl⟩
      exact upd_other _ _ (fun e => by rw [e, hn] at hu; cases hu; exact hj rfl)
    · intro _ u _ hg
      rcases hg with hg | hg
      · exact .inl hg
      · exact .inr ((hsp u _).2 hg)
    · simp only [St.setPc]; rw [hb u hu]; exact ⟨Nat.le_refl _, id⟩
    · simp only [St.setPc]; rw [hb u hu]; exact hx'
    · simp only [St.setPc]; rw [hb u hu]; exact ⟨Nat.le_refl _, id⟩
    · simp only [St.setPc]; rw [(hav b).2]
    · simp only [St.setPc]; rw [(hav b).1]; exact id
    · intro e t u _ h8 h9
      refine ⟨h8, ?_⟩
      rcases h9 with h9 | h9
      · exact .inl h9
      · exact .inr ⟨(hsp u _).2 h9.1, h9.2⟩
    · simp only [St.setPc]; rw [hb u (.inl hu)]
    · simp only [St.setPc]; rw [(hav b).2]
  · have := k.qt2; simp only [St.setPc, St.setBlk, upd_apply]; grind
  · have := k.lk; simp only [St.setPc, St.setBlk, upd_apply]; grind
  · have := k.rd; simp only [St.setPc, St.setBlk, upd_apply]; grind
  · have := k.wr; simp only [St.setPc, St.setBlk, upd_apply]; grind
  · simp only [St.setPc, upd_self]; exact h4
  · intro u hu
    have hu' : s.fl.pc i = .ref1 u ∨ ∃ n, s.fl.pc i = .ref2 u n := hu
    rw [hf] at hu'; simp at hu'
  · simp only [St.setPc, upd_self]
    show s.fl.held i = _
    rw [k.held i, heldOf, heldOf, h5.1, h5.2.1, h5.2.2]
  · simp only [St.setPc, upd_self]
    have h8 := h6 (fun u hu => ⟨hgood u s.pc hu, hne u (good_chain hu)⟩)
    have : Loc B { s.setBlk n x with pc := upd (s.setBlk n x).pc i p } i p = Loc B (s.setBlk n x) i p := by cases p <;> rfl
    rw [this]; exact h8
  · apply cont_congr
    intro b hb'
    simp only [St.setPc]; rw [hmem b hb']
    exact ⟨rfl, rfl, fun _ _ _ => rfl⟩
  · simp only [St.setPc, upd_self]; exact h7

end Queue
end Salticidae
