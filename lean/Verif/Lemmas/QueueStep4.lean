import Verif.Lemmas.QueueStep3
/-!
Enqueueing: a block is linked, a place is claimed and filled.
-/
namespace Salticidae
namespace Queue
open FreeList (upd upd_apply upd_self upd_other)

variable {α : Type} [DecidableEq α]

theorem no_ref {s : FreeList.St} {i : Nat} {r : FreeList.Res} (hf : s.pc i = .ret r) {P : Nat → Prop} :
    ∀ u, (s.pc i = .ref1 u ∨ ∃ n, s.pc i = .ref2 u n) → P u := by
  intro u hu; rw [hf] at hu; simp at hu

theorem alloc_of {B : Nat} {m : Mode} {s : St α} (k : Inv B m s) {u : Nat} (h : s.stat u ≠ .free) : u < s.fl.alloc := by
  rcases Nat.lt_or_ge u s.fl.alloc with h' | h'
  · exact h'
  · exact absurd (k.un u h').1 h

/-- A block at the end of the chain, which a producer may use. -/
theorem good_last {B : Nat} {m : Mode} {s : St α} (k : Inv B m s) {t : Nat} (hg : Good B s t) (hn : (s.blk t).next = none) :
    s.stat t = .chain ∧ s.hid t = none ∧ s.chain.getLast? = some t := by
  rcases hg with hg | hg
  · exact ⟨hg.1, hg.2, (linked_last k.nd k.link ((k.mem t).2 hg.1)).1 hn⟩
  · exact absurd hn hg.2.2.2.1

/-- The block is linked. -/
theorem inv_link {B : Nat} {m : Mode} {s : St α} {i t n : Nat} {e : α} {unb : Bool} (k : Inv B m s) {r : FreeList.Res} (hf : s.fl.pc i = .ret r)
    (hp : s.pc i = .e11 e unb t n) (hnx : (s.blk t).next = none) :
    Inv B m ((St.setStat { s.setBlk t { s.blk t with next := some n } with chain := s.chain ++ [n], lk := some (i, n), hid := upd s.hid n (some i) } n .chain).setPc i
      (.e12 e unb t n)) := by
  have hl := k.loc i
  rw [hp] at hl
  obtain ⟨hg, ht, hn, hfr, hh0, ht0, hnn⟩ := hl
  obtain ⟨hst, hhid, hlast⟩ := good_last k hg hnx
  have hnt : n ≠ t := fun e => by rw [e, hst] at hn; cases hn
  have hnc : n ∉ s.chain := fun hx => by rw [(k.mem n).1 hx] at hn; cases hn
  have hlk : s.lk = none := by
    cases hx : s.lk with
    | none => rfl
    | some y =>
      obtain ⟨j, n'⟩ := y
      have := k.qt2 j n' hx
      rw [hlast] at this
      have e1 := this.1
      cases e1
      rw [hhid] at this; cases this.2.1
  have hqt : s.qtail = t := by have := k.qt1 hlk; rw [hlast] at this; cases this; rfl
  have hfn : (s.fl.node n).freed = true ∨ s.seen n = false := by
    cases h1 : (s.fl.node n).freed with
    | true => exact .inl rfl
    | false =>
      cases h2 : s.seen n with
      | false => exact .inr rfl
      | true =>
        rcases k.fr n h2 h1 with h3 | h3
        · rw [h3] at hn; cases hn
        · have := h3.1.1; rw [this] at hn; cases hn
  have hal : n < s.fl.alloc := alloc_of k (by rw [hn]; simp)
  generalize hs' : (St.setStat { s.setBlk t { s.blk t with next := some n } with chain := s.chain ++ [n], lk := some (i, n), hid := upd s.hid n (some i) } n .chain).setPc i
      (.e12 e unb t n) = s'
  have e1 : s'.fl = s.fl ∧ s'.qhead = s.qhead ∧ s'.qtail = s.qtail ∧ s'.log = s.log ∧ s'.seen = s.seen ∧ s'.slot = s.slot ∧ s'.wr = s.wr ∧ s'.rd = s.rd := by
    rw [← hs']; exact ⟨rfl, rfl, rfl, rfl, rfl, rfl, rfl, rfl⟩
  obtain ⟨e1, e2, e3, e4, e5, e6, e7, e8⟩ := e1
  have e9 : s'.blk = upd s.blk t { s.blk t with next := some n } := by rw [← hs']; rfl
  have e10 : s'.chain = s.chain ++ [n] := by rw [← hs']; rfl
  have e11 : s'.stat = upd s.stat n .chain := by rw [← hs']; rfl
  have e12 : s'.lk = some (i, n) := by rw [← hs']; rfl
  have e13 : s'.hid = upd s.hid n (some i) := by rw [← hs']; rfl
  have e14 : s'.pc = upd s.pc i (.e12 e unb t n) := by rw [← hs']; rfl
  clear hs'
  have hbt : ∀ u, (s'.blk u).tail = (s.blk u).tail ∧ (s'.blk u).head = (s.blk u).head ∧ (s'.blk u).avail = (s.blk u).avail ∧ (s'.blk u).elem = (s.blk u).elem := by
    intro u; rw [e9, upd_apply]; split
    · rename_i e; rw [e]; exact ⟨rfl, rfl, rfl, rfl⟩
    · exact ⟨rfl, rfl, rfl, rfl⟩
  have hbn : ∀ u, u ≠ t → (s'.blk u).next = (s.blk u).next := by
    intro u hu; rw [e9, upd_other _ _ hu]
  have hbnt : (s'.blk t).next = some n := by rw [e9, upd_self]
  have hsp : ∀ u, Spent B s' u ↔ Spent B s u := by
    intro u
    simp only [Spent, (hbt u).1, (hbt u).2.1, e11, e1]
    by_cases e : u = n
    · subst e; simp [hn]
    · rw [upd_other _ _ e]
      by_cases e' : u = t
      · subst e'; simp [hst]
      · rw [hbn u e']
  have hch : ∀ u, s'.stat u = .chain ↔ s.stat u = .chain ∨ u = n := by
    intro u; rw [e11, upd_apply]; split
    · rename_i e; simp [e]
    · rename_i e; simp [e]
  have hun : ∀ u, Unmarked B s u → Unmarked B s' u := by
    intro u hu; exact ⟨(hsp u).2 hu.1, by rw [e1]; exact hu.2⟩
  have hlive : ∀ b c, Live s' b c ↔ Live s b c := by
    intro b c
    simp only [Live, hch, (hbt b).1, (hbt b).2.1, e8]
    constructor
    · rintro (⟨h1 | h1, h2⟩ | h1)
      · exact .inl ⟨h1, h2⟩
      · rw [h1, ht0] at h2; omega
      · exact .inr h1
    · rintro (h1 | h1)
      · exact .inl ⟨.inl h1.1, h1.2⟩
      · exact .inr h1
  have hg' : Glob B s' := by
    refine ⟨e1 ▸ k.fl, e1 ▸ k.bad, ?_, ?_, ?_, ?_, ?_, ?_, ?_, ?_, ?_, ?_, ?_, by rw [e5, e3]; exact k.qs, ?_, ?_, ?_, ?_, ?_, ?_⟩
    · rw [e10, e2, List.head?_append, k.hd]; rfl
    · rw [e9, e10]
      exact linked_snoc rfl k.nd hnc hlast hnn k.link
    · rw [e10]; exact List.nodup_append.2 ⟨k.nd, by simp, by intro a ha b hb; simp at hb; rw [hb]; exact fun e => hnc (e ▸ ha)⟩
    · intro u; rw [e10, hch, List.mem_append, k.mem u]; simp
    · intro u hu hx
      rw [(hbt u).1]
      rcases (hch u).1 hu with h1 | h1
      · by_cases e : u = t
        · rw [e]; exact ht
        · rw [hbn u e] at hx; exact k.full u h1 hx
      · rw [h1, hbn n hnt, hnn] at hx; exact absurd rfl hx
    · intro u hu
      rw [(hbt u).1]
      rcases (hch u).1 hu with h1 | h1
      · exact k.tl u h1
      · rw [h1, ht0]; exact Nat.zero_le _
    · intro u hu
      rw [(hbt u).2.1]
      rw [e10, List.tail_append_of_ne_nil (by intro hx; rw [hx] at hlast; cases hlast), List.mem_append] at hu
      rcases hu with h1 | h1
      · exact k.zero u h1
      · simp at h1; rw [h1]; exact hh0
    · intro u hu
      rw [(hbt u).1, (hbt u).2.1]
      rcases (hch u).1 hu with h1 | h1
      · exact k.ht u h1
      · rw [h1, ht0, hh0]; exact Nat.le_refl _
    · intro u hu
      rw [e1] at hu ⊢
      rw [e11, upd_apply]
      split
      · rename_i e
        have := k.st u hu
        rw [e, hn] at this; rw [e]; simpa using this
      · exact k.st u hu
    · intro u hu
      rw [e1] at hu
      rw [e11, e5, upd_other _ _ (by omega)]
      exact k.un u hu
    · rw [e12]; intro hx; cases hx
    · intro u j hu
      rw [(hbt u).1, e1, e5]
      rw [e13, upd_apply] at hu
      split at hu
      · rename_i e; rw [e]; exact ⟨(hch n).2 (.inr rfl), ht0, hfn⟩
      · have := k.hid u j hu
        exact ⟨(hch u).2 (.inl this.1), this.2⟩
    · intro u hs hfr
      rw [e5] at hs; rw [e1] at hfr
      rcases k.fr u hs hfr with h1 | h1
      · exact .inl ((hch u).2 (.inl h1))
      · exact .inr (hun u h1)
    · intro u hu hfr
      rw [e1] at hu ⊢
      apply k.fz u hu
      rw [e11, upd_apply] at hfr
      split at hfr
      · cases hfr
      · exact hfr
    · intro b c hl; rw [e7, e6, (hbt b).2.2.1, (hbt b).2.2.2]; exact k.sl b c ((hlive b c).1 hl)
    · intro b c hl; rw [e7, (hbt b).2.2.1]; exact k.sd b c (fun hx => hl ((hlive b c).2 hx))
    · intro b c hr
      rw [e8] at hr
      have := k.rdk b c hr
      rw [(hbt b).2.1]
      refine ⟨this.1, ?_⟩
      rcases this.2 with h1 | h1
      · exact .inl ((hch b).2 (.inl h1))
      · exact .inr ((hsp b).2 h1)
  refine inv_mk (s := s) (i := i) k hg' (fun j hj => by rw [e14]; exact upd_other _ _ hj) (fun _ _ => by rw [e1]) (fun _ _ => by rw [e1]) ?_ ?_ ?_ ?_ ?_ ?_ ?_ ?_ ?_ (leg_same e4 ?_ ?_)
  · intro j hj
    refine ⟨fun _ hu => by rw [e1] at hu; exact .inl hu, fun _ _ hu => by rw [e1] at hu; exact .inl hu, ?_, ?_, ?_, fun u _ => ?_, fun u x hu hx => ?_, fun _ u _ => ?_,
      fun b c _ => ?_, fun b c _ => ?_, fun _ hx => by rw [e5]; exact hx, ?_, ?_, fun _ => e2, fun _ u _ => (hbt u).2.1, fun _ b c _ _ _ => by rw [(hbt b).2.2.2]⟩
    · intro u hu
      have h1 : u ≠ n := fun e => by rw [e, hn] at hu; cases hu; exact hj rfl
      have h2 : u ≠ t := fun e => by rw [e, hst] at hu; cases hu
      rw [e11, e9, e1, upd_other _ _ h1, upd_other _ _ h2]; exact ⟨hu, rfl, rfl⟩
    · intro u _ hgu
      rcases hgu with h1 | h1
      · have h2 : u ≠ n := fun e => by rw [e, hn] at h1; cases h1.1
        exact .inl ⟨(hch u).2 (.inl h1.1), by rw [e13, upd_other _ _ h2]; exact h1.2⟩
      · exact .inr ((hsp u).2 h1)
    · intro _ u _ hgu
      rcases hgu with h1 | h1
      · exact .inl (e2.trans h1)
      · exact .inr ((hsp u).2 h1)
    · rw [(hbt u).1]; exact ⟨Nat.le_refl _, id⟩
    · by_cases e : u = t
      · rw [e, hnx] at hx; cases hx
      · rw [hbn u e]; exact hx
    · rw [(hbt u).2.1]; exact ⟨Nat.le_refl _, id⟩
    · rw [e6, (hbt b).2.2.2]; exact ⟨rfl, rfl⟩
    · rw [e6, (hbt b).2.2.1]; exact ⟨rfl, id⟩
    · intro u hu
      have h1 : u ≠ n := fun e => by have := (k.hid u j hu).1; rw [e, hn] at this; cases this
      rw [e13, upd_other _ _ h1, e1]; exact ⟨hu, rfl⟩
    · intro _ _ u _ h8 h9
      rw [e1]
      refine ⟨h8, ?_⟩
      rcases h9 with h9 | h9
      · exact .inl ((hch u).2 (.inl h9))
      · exact .inr (hun u h9)
  · intro j n' hx
    rw [e12] at hx
    cases hx
    rw [e10, e13, e14, upd_self, upd_self, e3, hqt]
    exact ⟨by simp, rfl, rfl⟩
  · intro j t' n' hx
    rw [e14, upd_apply] at hx
    split at hx
    · rename_i e; simp only [Pc.links, Option.some.injEq, Prod.mk.injEq] at hx; rw [e12, e, hx.2]
    · have := k.lk j t' n' hx; rw [hlk] at this; cases this
  · have := k.rd; rw [e8, e14]; simp only [upd_apply]
    intro b c j; split
    · rename_i e; rw [this, e, hp]; rfl
    · exact this b c j
  · have := k.wr; rw [e7, e14]; simp only [upd_apply]
    intro b c j; split
    · rename_i e; rw [this, e, hp]; rfl
    · exact this b c j
  · rw [e14, upd_self]; trivial
  · rw [e1]; exact no_ref hf
  · rw [e1, e14, upd_self, k.held i, hp]; rfl
  · rw [e14, upd_self]
    refine ⟨by rw [e13, upd_self], ?_⟩
    rw [e1]; exact hfr
  · rw [e6, e10, cont_append]
    have h1 : cont s'.blk s.slot [n] = [] := by
      rw [cont_cons, (hbt n).1, (hbt n).2.1, ht0, hh0]; rfl
    rw [h1, List.append_nil]
    apply cont_congr
    intro b _
    rw [(hbt b).1, (hbt b).2.1]
    exact ⟨rfl, rfl, fun _ _ _ => rfl⟩
  · rw [e14, upd_self, hp]; rfl

/-- The queue's tail is set to the block. -/
theorem inv_settail {B : Nat} {m : Mode} {s : St α} {i t n : Nat} {e : α} {unb : Bool} (k : Inv B m s) {r : FreeList.Res} (hf : s.fl.pc i = .ret r)
    (hp : s.pc i = .e12 e unb t n) :
    Inv B m (St.setPc { s with qtail := n, lk := none, seen := upd s.seen n true, hid := upd s.hid n (if (s.fl.node n).freed then some i else none) } i
      (.e13 e unb t n)) := by
  have hl := k.loc i
  rw [hp] at hl
  obtain ⟨hhid, hfr⟩ := hl
  have hlk := k.lk i t n (by rw [hp]; rfl)
  obtain ⟨hlast, _, hq⟩ := k.qt2 i n hlk
  obtain ⟨hst, ht0, hfs⟩ := k.hid n i hhid
  have hal : n < s.fl.alloc := alloc_of k (by rw [hst]; simp)
  have hseen : ∀ u, s.seen u = true → upd s.seen n true u = true := by
    intro u hu; rw [upd_apply]; split
    · rfl
    · exact hu
  have hhu : ∀ u, s.hid u = none → upd s.hid n (if (s.fl.node n).freed then some i else none) u = none := by
    intro u hu
    rw [upd_other _ _ (fun e => by rw [e, hhid] at hu; cases hu)]; exact hu
  have hg : Glob B (St.setPc { s with qtail := n, lk := none, seen := upd s.seen n true, hid := upd s.hid n (if (s.fl.node n).freed then some i else none) } i
      (.e13 e unb t n)) := by
    refine ⟨k.fl, k.bad, k.hd, k.link, k.nd, k.mem, k.full, k.tl, k.zero, k.ht, k.st, ?_, fun _ => hlast, upd_self _ _ _, ?_, ?_, k.fz, k.sl, k.sd, k.rdk⟩
    · intro u hu
      have hu' : s.fl.alloc ≤ u := hu
      show _ ∧ upd s.seen n true u = false
      rw [upd_other _ _ (by omega)]; exact k.un u hu'
    · intro u j hu
      have hu' : upd s.hid n (if (s.fl.node n).freed then some i else none) u = some j := hu
      rw [upd_apply] at hu'
      split at hu'
      · rename_i e
        split at hu'
        · rw [e]; rename_i hx; exact ⟨hst, ht0, .inl hx⟩
        · cases hu'
      · rename_i e
        have := k.hid u j hu'
        refine ⟨this.1, this.2.1, ?_⟩
        show _ ∨ upd s.seen n true u = false
        rw [upd_other _ _ e]; exact this.2.2
    · intro u hs hfr
      have hs' : upd s.seen n true u = true := hs
      rw [upd_apply] at hs'
      split at hs'
      · rename_i e; rw [e]; exact .inl hst
      · exact k.fr u hs' hfr
  refine inv_mk (s := s) (i := i) k hg (fun j hj => upd_other _ _ hj) (fun _ _ => rfl) (fun _ _ => rfl) ?_ ?_ ?_ ?_ ?_ (by simp only [St.setPc, upd_self]; trivial) (no_ref hf) ?_ ?_ (leg_same rfl rfl ?_)
  · intro j hj
    refine ⟨fun _ hu => .inl hu, fun _ _ hu => .inl hu, fun _ hu => ⟨hu, rfl, rfl⟩, ?_, fun _ _ _ hg => hg, fun u _ => ⟨Nat.le_refl _, id⟩, fun u x hu hx => hx, fun _ u _ => ⟨Nat.le_refl _, id⟩,
      fun b c _ => ⟨rfl, rfl⟩, fun b c _ => ⟨rfl, id⟩, hseen, ?_, fun _ _ _ _ h8 h9 => ⟨h8, h9⟩, fun _ => rfl, fun _ u _ => rfl, fun _ b c _ _ _ => rfl⟩
    · intro u _ hgu
      rcases hgu with h1 | h1
      · exact .inl ⟨h1.1, hhu u h1.2⟩
      · exact .inr h1
    · intro u hu
      refine ⟨?_, rfl⟩
      show upd s.hid n _ u = _
      rw [upd_other _ _ (fun e => by rw [e, hhid] at hu; cases hu; exact hj rfl)]; exact hu
  · intro j n' hx; cases hx
  · intro j t' n' hx
    have hx' : (upd s.pc i (.e13 e unb t n) j).links = some (t', n') := hx
    rw [upd_apply] at hx'
    split at hx'
    · cases hx'
    · rename_i e'
      have := k.lk j t' n' hx'; rw [hlk] at this; cases this; exact absurd rfl e'
  · have := k.rd; simp only [St.setPc, upd_apply]
    intro b c j; split
    · rename_i e; rw [this, e, hp]; rfl
    · exact this b c j
  · have := k.wr; simp only [St.setPc, upd_apply]
    intro b c j; split
    · rename_i e; rw [this, e, hp]; rfl
    · exact this b c j
  · simp only [St.setPc, upd_self]
    rw [k.held i, hp]; rfl
  · simp only [St.setPc, upd_self, Loc]
    refine ⟨trivial, ?_⟩
    cases hx : (s.fl.node n).freed with
    | true => left; simp
    | false =>
      right
      refine ⟨?_, rfl, .inl hst⟩
      cases unb with
      | true => rfl
      | false => rw [hfr rfl] at hx; cases hx
  · simp only [St.setPc, upd_self]; rw [hp]; rfl

/-- The block's mark is cleared. -/
theorem inv_clear {B : Nat} {m : Mode} {s : St α} {i t n : Nat} {e : α} {unb : Bool} (k : Inv B m s) {r : FreeList.Res} (hf : s.fl.pc i = .ret r)
    (hp : s.pc i = .e13 e unb t n) :
    Inv B m (St.setPc { s with fl := s.fl.setFreed n false, hid := upd s.hid n none } i (.e14 e unb t)) := by
  have hl := k.loc i
  rw [hp] at hl
  obtain ⟨hseen, hl⟩ := hl
  have hcu : s.stat n = .chain ∨ Unmarked B s n := by
    rcases hl with hl | hl
    · exact .inl (k.hid n i hl.1).1
    · exact hl.2.2
  have hnp : ∀ j, s.stat n ≠ .priv j := by
    intro j hx
    rcases hcu with h1 | h1
    · rw [hx] at h1; cases h1
    · have := h1.1.1; rw [hx] at this; cases this
  have hhid : ∀ j, s.hid n = some j → j = i := by
    intro j hx
    rcases hl with hl | hl
    · rw [hl.1] at hx; cases hx; rfl
    · have := (k.hid n j hx).2.2
      rw [hl.2.1, hseen] at this; simp at this
  have hal : n < s.fl.alloc := by
    rcases Nat.lt_or_ge n s.fl.alloc with h' | h'
    · exact h'
    · rw [(k.un n h').2] at hseen; cases hseen
  have hfre : ∀ u, u ≠ n → ((s.fl.setFreed n false).node u) = (s.fl.node u) := by
    intro u hu; exact upd_other _ _ hu
  have hfren : ((s.fl.setFreed n false).node n).freed = false := by
    show (upd s.fl.node n _ n).freed = false
    rw [upd_self]
  have hg : Glob B (St.setPc { s with fl := s.fl.setFreed n false, hid := upd s.hid n none } i (.e14 e unb t)) := by
    refine ⟨FreeList.inv_setFreed k.fl hal, k.bad, k.hd, k.link, k.nd, k.mem, k.full, k.tl, k.zero, k.ht, k.st, k.un, k.qt1, k.qs, ?_, ?_, ?_, k.sl, k.sd, k.rdk⟩
    · intro u j hu
      have hu' : upd s.hid n none u = some j := hu
      rw [upd_apply] at hu'
      split at hu'
      · cases hu'
      · rename_i e
        have := k.hid u j hu'
        refine ⟨this.1, this.2.1, ?_⟩
        show ((s.fl.setFreed n false).node u).freed = true ∨ _
        rw [hfre u e]; exact this.2.2
    · intro u hs hfr
      by_cases e : u = n
      · rw [e]; exact hcu
      · refine k.fr u hs ?_
        have hfr' : ((s.fl.setFreed n false).node u).freed = false := hfr
        rw [hfre u e] at hfr'; exact hfr'
    · intro u hu hfr
      by_cases e : u = n
      · right
        rcases hcu with h1 | h1
        · have hfr' : s.stat u = .free := hfr
          rw [e, h1] at hfr'; cases hfr'
        · rw [e]; exact h1.2
      · show ((s.fl.setFreed n false).node u).freed = true ∨ _
        rw [hfre u e]; exact k.fz u hu hfr
  refine inv_mk (s := s) (i := i) k hg (fun j hj => upd_other _ _ hj) (fun _ _ => rfl) (fun _ _ => rfl) ?_ ?_ ?_ ?_ ?_ ?_ (no_ref (s := s.fl) hf) ?_ ?_ (leg_same rfl rfl ?_)
  · intro j hj
    refine ⟨fun _ hu => .inl hu, fun _ _ hu => .inl hu, fun u hu => ⟨hu, rfl, ?_⟩, ?_, fun _ _ _ hg => hg, fun u _ => ⟨Nat.le_refl _, id⟩, fun u x hu hx => hx, fun _ u _ => ⟨Nat.le_refl _, id⟩,
      fun b c _ => ⟨rfl, rfl⟩, fun b c _ => ⟨rfl, id⟩, fun _ hx => hx, ?_, ?_, fun _ => rfl, fun _ u _ => rfl, fun _ b c _ _ _ => rfl⟩
    · show ((s.fl.setFreed n false).node u).freed = _
      rw [hfre u (fun e => hnp j (e ▸ hu))]
    · intro u _ hgu
      rcases hgu with h1 | h1
      · refine .inl ⟨h1.1, ?_⟩
        show upd s.hid n none u = none
        rw [upd_apply]; split
        · rfl
        · exact h1.2
      · exact .inr h1
    · intro u hu
      have h1 : u ≠ n := fun e => hj (hhid j (e ▸ hu))
      refine ⟨?_, ?_⟩
      · show upd s.hid n _ u = _
        rw [upd_other _ _ h1]; exact hu
      · show ((s.fl.setFreed n false).node u).freed = _
        rw [hfre u h1]
    · intro _ _ u _ h8 h9
      refine ⟨?_, h9⟩
      by_cases e : u = n
      · rw [e]; exact hfren
      · show ((s.fl.setFreed n false).node u).freed = _
        rw [hfre u e]; exact h8
  · intro j n' hx
    obtain ⟨h1, h2, h3⟩ := k.qt2 j n' hx
    have hji : j ≠ i := by
      intro e; rw [e, hp] at h3; cases h3
    refine ⟨h1, ?_, ?_⟩
    · show upd s.hid n none n' = some j
      rw [upd_other _ _ (fun e => hji (hhid j (by rw [← e]; exact h2)))]; exact h2
    · show (upd s.pc i _ j).links = _
      rw [upd_other _ _ hji]; exact h3
  · intro j t' n' hx
    have hx' : (upd s.pc i (.e14 e unb t) j).links = some (t', n') := hx
    rw [upd_apply] at hx'
    split at hx'
    · cases hx'
    · exact k.lk j t' n' hx'
  · have := k.rd; simp only [St.setPc, upd_apply]
    intro b c j; split
    · rename_i e; rw [this, e, hp]; rfl
    · exact this b c j
  · have := k.wr; simp only [St.setPc, upd_apply]
    intro b c j; split
    · rename_i e; rw [this, e, hp]; rfl
    · exact this b c j
  · simp only [St.setPc, upd_self]; trivial
  · simp only [St.setPc, upd_self]
    show s.fl.held i = _
    rw [k.held i, hp]; rfl
  · simp only [St.setPc, upd_self]; trivial
  · simp only [St.setPc, upd_self]; rw [hp]; rfl

end Queue
end Salticidae
