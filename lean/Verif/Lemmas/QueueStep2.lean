import Verif.Lemmas.QueueMicro
/-!
Blocks are created, given to the free list, and leave the queue.
-/
namespace Salticidae
namespace Queue
open FreeList (upd upd_apply upd_self upd_other)

variable {α : Type} [DecidableEq α]

/-- A block is created. -/
theorem inv_new {B : Nat} {m : Mode} {s : St α} {i : Nat} {p : Pc α} (k : Inv B m s) {r : FreeList.Res} (hf : s.fl.pc i = .ret r)
    (h1 : p.links = none ∧ (s.pc i).links = none) (h2 : p.reads = (s.pc i).reads) (h3 : p.writes = (s.pc i).writes) (h4 : p.role m i)
    (h5 : p.wants = none ∧ (s.pc i).wants = none ∧ p.refs = (s.pc i).refs)
    (h6 : (∀ u, Good B s u → u ≠ s.fl.alloc → Good B ((s.call i .new).setStat s.fl.alloc (.priv i)) u) →
      Loc B ((s.call i .new).setStat s.fl.alloc (.priv i)) i p) (h7 : p.doing s.slot = (s.pc i).doing s.slot) :
    Inv B m (((s.call i .new).setStat s.fl.alloc (.priv i)).setPc i p) := by
  have hb : (FreeList.call s.fl i .new).bad = false := k.bad
  have hfl := FreeList.inv_call k.fl (idle_ret hf) rfl hb
  have hn := k.un s.fl.alloc (Nat.le_refl _)
  have hph := (k.fl.fresh s.fl.alloc (Nat.le_refl _)).2
  have hum : ∀ u, (∃ j, s.fl.pc j = .push u) ↔ ∃ j, (FreeList.call s.fl i .new).pc j = .push u := by
    intro u
    constructor
    · rintro ⟨j, hj⟩
      refine ⟨j, ?_⟩
      show upd s.fl.pc i _ j = _
      rw [upd_other _ _ (fun e => by rw [e, hf] at hj; cases hj)]; exact hj
    · rintro ⟨j, hj⟩
      by_cases e : j = i
      · subst e; simp [FreeList.call] at hj
      · simp only [FreeList.call] at hj; rw [upd_other _ _ e] at hj; exact ⟨j, hj⟩
  have hsp : ∀ u pc, Spent B { (s.call i .new).setStat s.fl.alloc (.priv i) with pc := pc } u ↔ Spent B s u := by
    intro u pc
    simp only [Spent, St.call, St.setStat, FreeList.call, upd_apply]
    by_cases e : u = s.fl.alloc
    · subst e; simp [hph]
    · simp [e]
  have hun : ∀ u pc, Unmarked B { (s.call i .new).setStat s.fl.alloc (.priv i) with pc := pc } u ↔ Unmarked B s u := by
    intro u pc
    show Spent B _ u ∧ _ ↔ _
    rw [hsp]
    show _ ∧ (∃ j, (FreeList.call s.fl i .new).pc j = .push u) ↔ _
    rw [← hum]; rfl
  have hch : ∀ u, upd s.stat s.fl.alloc (.priv i) u = .chain ↔ s.stat u = .chain := by
    intro u; rw [upd_apply]; split
    · rename_i e; rw [e, hn.1]; simp
    · rfl
  have hlive : ∀ b c pc, Live { (s.call i .new).setStat s.fl.alloc (.priv i) with pc := pc } b c ↔ Live s b c := by
    intro b c pc
    simp only [Live, St.call, St.setStat, hch]
  have hgood : ∀ u pc, Good B s u → Good B { (s.call i .new).setStat s.fl.alloc (.priv i) with pc := pc } u := by
    intro u pc hg
    rcases hg with hg | hg
    · exact .inl ⟨(hch u).2 hg.1, hg.2⟩
    · exact .inr ((hsp u pc).2 hg)
  have hg : Glob B (((s.call i .new).setStat s.fl.alloc (.priv i)).setPc i p) := by
    refine ⟨hfl, hb, k.hd, k.link, k.nd, ?_, ?_, ?_, k.zero, ?_, ?_, ?_, k.qt1, k.qs, ?_, ?_, ?_, ?_, ?_, ?_⟩
    · intro u; exact (k.mem u).trans (hch u).symm
    · intro u hu; exact k.full u ((hch u).1 hu)
    · intro u hu; exact k.tl u ((hch u).1 hu)
    · intro u hu; exact k.ht u ((hch u).1 hu)
    · intro u hu
      show upd s.stat s.fl.alloc (.priv i) u = .free ↔ s.fl.phase u ≠ .used
      rw [upd_apply]
      split
      · rename_i e; rw [e, hph]; simp
      · rename_i e
        have hu' : u < s.fl.alloc + 1 := hu
        exact k.st u (by omega)
    · intro u hu
      have hu' : s.fl.alloc + 1 ≤ u := hu
      have := k.un u (by omega)
      refine ⟨?_, this.2⟩
      show upd s.stat s.fl.alloc (.priv i) u = .free
      rw [upd_other _ _ (by omega)]; exact this.1
    · intro n j hn'; have := k.hid n j hn'; exact ⟨(hch n).2 this.1, this.2⟩
    · intro u hs hfr
      rcases k.fr u hs hfr with h | h
      · exact .inl ((hch u).2 h)
      · exact .inr ((hun u _).2 h)
    · intro u hu hfr
      have hu' : u < s.fl.alloc + 1 := hu
      have h8 : upd s.stat s.fl.alloc (.priv i) u = .free := hfr
      rw [upd_apply] at h8
      split at h8
      · cases h8
      · rename_i e
        rcases k.fz u (by omega) h8 with h | h
        · exact .inl h
        · exact .inr ((hum u).1 h)
    · intro b c hl; exact k.sl b c ((hlive b c _).1 hl)
    · intro b c hl; exact k.sd b c (fun hx => hl ((hlive b c _).2 hx))
    · intro b c hr
      have := k.rdk b c hr
      refine ⟨this.1, ?_⟩
      rcases this.2 with h | h
      · exact .inl ((hch b).2 h)
      · exact .inr ((hsp b _).2 h)
  refine inv_mk (s := s) (i := i) k hg (fun j hj => upd_other _ _ hj) (fun _ _ => rfl) (fun j hj => upd_other _ _ hj) ?_ ?_ ?_ ?_ ?_ ?_ ?_ ?_ ?_ (leg_same rfl rfl ?_)
  · intro j hj
    refine ⟨?_, ?_, ?_, fun u _ => hgood u _, ?_, fun u _ => ⟨Nat.le_refl _, id⟩, fun _ _ _ hx => hx, fun _ u _ => ⟨Nat.le_refl _, id⟩, fun _ _ _ => ⟨rfl, rfl⟩,
      fun _ _ _ => ⟨rfl, id⟩, fun _ hx => hx, fun _ hx => ⟨hx, rfl⟩, ?_, fun _ => rfl, fun _ _ _ => rfl, fun _ _ _ _ _ _ => rfl⟩
    · intro u hu
      have : (((s.call i .new).setStat s.fl.alloc (.priv i)).setPc i p).fl.pc j = s.fl.pc j := upd_other _ _ hj
      rw [this] at hu; exact .inl hu
    · intro u _ hu
      have : (((s.call i .new).setStat s.fl.alloc (.priv i)).setPc i p).fl.pc j = s.fl.pc j := upd_other _ _ hj
      rw [this] at hu; exact .inl hu
    · intro u hu
      refine ⟨?_, rfl, rfl⟩
      show upd s.stat s.fl.alloc (.priv i) u = .priv j
      rw [upd_other _ _ (fun e => by rw [e, hn.1] at hu; cases hu)]; exact hu
    · intro _ u _ hg
      rcases hg with hg | hg
      · exact .inl hg
      · exact .inr ((hsp u _).2 hg)
    · intro e t n _ h8 h9
      refine ⟨h8, ?_⟩
      rcases h9 with h9 | h9
      · exact .inl ((hch n).2 h9)
      · exact .inr ((hun n _).2 h9)
  · have := k.qt2; simp only [St.setPc, St.setStat, St.call, upd_apply]; grind
  · have := k.lk; simp only [St.setPc, St.setStat, St.call, upd_apply]; grind
  · have := k.rd; simp only [St.setPc, St.setStat, St.call, upd_apply]; grind
  · have := k.wr; simp only [St.setPc, St.setStat, St.call, upd_apply]; grind
  · simp only [St.setPc, upd_self]; exact h4
  · intro u hu; simp [St.setPc, St.setStat, St.call, FreeList.call] at hu
  · simp only [St.setPc, St.setStat, St.call, FreeList.call, upd_self]
    rw [k.held i, heldOf, heldOf, h5.1, h5.2.1, h5.2.2]
  · simp only [St.setPc, upd_self]
    have h8 := h6 (fun u hu _ => hgood u s.pc hu)
    have : Loc B { (s.call i .new).setStat s.fl.alloc (.priv i) with pc := upd ((s.call i .new).setStat s.fl.alloc (.priv i)).pc i p } i p =
      Loc B ((s.call i .new).setStat s.fl.alloc (.priv i)) i p := by cases p <;> rfl
    rw [this]; exact h8
  · simp only [St.setPc, upd_self]; exact h7

/-- A block of thread i is given to the free list. -/
theorem inv_push {B : Nat} {m : Mode} {s : St α} {i n : Nat} {p : Pc α} (k : Inv B m s) {r : FreeList.Res} (hf : s.fl.pc i = .ret r)
    (hn : s.stat n = .priv i)
    (h1 : p.links = none ∧ (s.pc i).links = none) (h2 : p.reads = (s.pc i).reads) (h3 : p.writes = (s.pc i).writes) (h4 : p.role m i)
    (h5 : p.wants = none ∧ (s.pc i).wants = none ∧ p.refs = (s.pc i).refs) (h6 : ∀ s' : St α, Loc B s' i p) (h7 : p.doing s.slot = (s.pc i).doing s.slot) :
    Inv B m (((s.setStat n .free).call i (.push n)).setPc i p) := by
  have ha : n < s.fl.alloc := by
    rcases Nat.lt_or_ge n s.fl.alloc with h | h
    · exact h
    · rw [(k.un n h).1] at hn; cases hn
  have hph : s.fl.phase n = .used := by
    have := k.st n ha
    rw [hn] at this; simpa using this
  have hc : s.fl.phase n = .used ∧ n < s.fl.alloc := ⟨hph, ha⟩
  have ec : FreeList.call s.fl i (.push n) = { s.fl with log := s.fl.log ++ [.push n], phase := upd s.fl.phase n (.leaving i), pc := upd s.fl.pc i (.push n) } := by
    simp only [FreeList.call, if_pos hc, FreeList.St.setPhase, FreeList.St.setPc]
  have hb : (FreeList.call s.fl i (.push n)).bad = false := by rw [ec]; exact k.bad
  have hfl := FreeList.inv_call k.fl (idle_ret hf) rfl hb
  have hum : ∀ u, u ≠ n → ((∃ j, s.fl.pc j = .push u) ↔ ∃ j, (FreeList.call s.fl i (.push n)).pc j = .push u) := by
    intro u hu
    rw [ec]
    constructor
    · rintro ⟨j, hj⟩
      refine ⟨j, ?_⟩
      show upd s.fl.pc i _ j = _
      rw [upd_other _ _ (fun e => by rw [e, hf] at hj; cases hj)]; exact hj
    · rintro ⟨j, hj⟩
      by_cases e : j = i
      · subst e; simp only [upd_self, FreeList.Pc.push.injEq] at hj; exact absurd hj.symm hu
      · simp only at hj; rw [upd_other _ _ e] at hj; exact ⟨j, hj⟩
  have hnsp : ∀ u, Spent B s u → u ≠ n := by
    intro u hu e; rw [e] at hu; have := hu.1; rw [hn] at this; cases this
  have hsp : ∀ u, Spent B s u → Spent B (((s.setStat n .free).call i (.push n)).setPc i p) u := by
    intro u hu
    have e := hnsp u hu
    simp only [Spent, St.call, St.setStat, St.setPc, ec, upd_apply, if_neg e]
    exact hu
  have hun : ∀ u, Unmarked B s u → Unmarked B (((s.setStat n .free).call i (.push n)).setPc i p) u := by
    intro u ⟨hu, hj⟩
    exact ⟨hsp u hu, (hum u (hnsp u hu)).1 hj⟩
  have hch : ∀ u, upd s.stat n .free u = .chain ↔ s.stat u = .chain := by
    intro u; rw [upd_apply]; split
    · rename_i e; rw [e, hn]; simp
    · rfl
  have hlive : ∀ b c, Live (((s.setStat n .free).call i (.push n)).setPc i p) b c ↔ Live s b c := by
    intro b c
    simp only [Live, St.call, St.setStat, St.setPc, hch]
  have hgood : ∀ u, Good B s u → Good B (((s.setStat n .free).call i (.push n)).setPc i p) u := by
    intro u hg
    rcases hg with hg | hg
    · exact .inl ⟨(hch u).2 hg.1, hg.2⟩
    · exact .inr (hsp u hg)
  have hg : Glob B (((s.setStat n .free).call i (.push n)).setPc i p) := by
    refine ⟨hfl, hb, k.hd, k.link, k.nd, ?_, ?_, ?_, k.zero, ?_, ?_, ?_, k.qt1, k.qs, ?_, ?_, ?_, ?_, ?_, ?_⟩
    · intro u; exact (k.mem u).trans (hch u).symm
    · intro u hu; exact k.full u ((hch u).1 hu)
    · intro u hu; exact k.tl u ((hch u).1 hu)
    · intro u hu; exact k.ht u ((hch u).1 hu)
    · intro u hu
      simp only [St.setPc, St.call, St.setStat, ec] at hu ⊢
      rw [upd_apply, upd_apply]
      split
      · simp
      · exact k.st u hu
    · intro u hu
      simp only [St.setPc, St.call, St.setStat, ec] at hu ⊢
      have := k.un u hu
      rw [upd_other _ _ (by omega)]; exact this
    · intro n' j hn'
      have := k.hid n' j hn'
      simp only [St.setPc, St.call, St.setStat, ec]
      exact ⟨(hch n').2 this.1, this.2⟩
    · intro u hs hfr
      have hfr' : (s.fl.node u).freed = false := by simpa only [St.setPc, St.call, St.setStat, ec] using hfr
      rcases k.fr u hs hfr' with h | h
      · exact .inl ((hch u).2 h)
      · exact .inr (hun u h)
    · intro u hu hfr
      by_cases e : u = n
      · right; refine ⟨i, ?_⟩
        simp only [St.setPc, St.call, St.setStat, ec, upd_self, e]
      · simp only [St.setPc, St.call, St.setStat, upd_other _ _ e] at hfr
        have hu' : u < s.fl.alloc := by simpa only [St.setPc, St.call, St.setStat, ec] using hu
        rcases k.fz u hu' hfr with h | h
        · left; simpa only [St.setPc, St.call, St.setStat, ec] using h
        · exact .inr ((hum u e).1 h)
    · intro b c hl; exact k.sl b c ((hlive b c).1 hl)
    · intro b c hl; exact k.sd b c (fun hx => hl ((hlive b c).2 hx))
    · intro b c hr
      have := k.rdk b c hr
      refine ⟨this.1, ?_⟩
      rcases this.2 with h | h
      · exact .inl ((hch b).2 h)
      · exact .inr (hsp b h)
  have hpcj : ∀ j, j ≠ i → (((s.setStat n .free).call i (.push n)).setPc i p).fl.pc j = s.fl.pc j := by
    intro j hj; simp only [St.setPc, St.call, St.setStat, ec, upd_other _ _ hj]
  refine inv_mk (s := s) (i := i) k hg (fun j hj => upd_other _ _ hj) (fun j _ => by simp only [St.setPc, St.call, St.setStat, ec]) hpcj ?_ ?_ ?_ ?_ ?_ ?_ ?_ ?_ ?_ (leg_same rfl rfl ?_)
  · intro j hj
    refine ⟨?_, ?_, ?_, fun u _ => hgood u, ?_, fun u _ => ⟨Nat.le_refl _, id⟩, fun _ _ _ hx => hx, fun _ u _ => ⟨Nat.le_refl _, id⟩, fun _ _ _ => ⟨rfl, rfl⟩,
      fun _ _ _ => ⟨rfl, id⟩, fun _ hx => hx, ?_, ?_, fun _ => rfl, fun _ _ _ => rfl, fun _ _ _ _ _ _ => rfl⟩
    · intro u hu; rw [hpcj j hj] at hu; exact .inl hu
    · intro u _ hu; rw [hpcj j hj] at hu; exact .inl hu
    · intro u hu
      have e : u ≠ n := fun e => by rw [e, hn] at hu; cases hu; exact hj rfl
      simp only [St.setPc, St.call, St.setStat, ec, upd_other _ _ e]
      exact ⟨hu, trivial, trivial⟩
    · intro _ u _ hg
      rcases hg with hg | hg
      · exact .inl hg
      · exact .inr (hsp u hg)
    · intro u hx; simp only [St.setPc, St.call, St.setStat, ec]; exact ⟨hx, trivial⟩
    · intro e t u _ h8 h9
      refine ⟨by simpa only [St.setPc, St.call, St.setStat, ec] using h8, ?_⟩
      rcases h9 with h9 | h9
      · exact .inl ((hch u).2 h9)
      · exact .inr (hun u h9)
  · have := k.qt2; simp only [St.setPc, St.setStat, St.call, upd_apply]; grind
  · have := k.lk; simp only [St.setPc, St.setStat, St.call, upd_apply]; grind
  · have := k.rd; simp only [St.setPc, St.setStat, St.call, upd_apply]; grind
  · have := k.wr; simp only [St.setPc, St.setStat, St.call, upd_apply]; grind
  · simp only [St.setPc, upd_self]; exact h4
  · intro u hu; simp [St.setPc, St.setStat, St.call, ec] at hu
  · simp only [St.setPc, St.setStat, St.call, ec, upd_self]
    rw [k.held i, heldOf, heldOf, h5.1, h5.2.1, h5.2.2]
  · simp only [St.setPc, upd_self]; exact h6 _
  · simp only [St.setPc, upd_self]; exact h7

/-- The first block, used up, leaves the queue. -/
theorem inv_retire {B : Nat} {m : Mode} {s : St α} {i h n : Nat} {p : Pc α} (hB : 0 < B) (k : Inv B m s) {r : FreeList.Res} (hf : s.fl.pc i = .ret r)
    (hh : h = s.qhead) (ht : (s.blk h).tail = B) (hhd : (s.blk h).head = B) (hnx : (s.blk h).next = some n) (hm : m = .single i ∨ m = .multi)
    (h1 : p.links = none ∧ (s.pc i).links = none) (h2 : p.reads = (s.pc i).reads) (h3 : p.writes = (s.pc i).writes) (h4 : p.role m i)
    (h5 : p.wants = none ∧ (s.pc i).wants = none ∧ p.refs = (s.pc i).refs) (h6 : ∀ s' : St α, Loc B s' i p) (h7 : p.doing s.slot = (s.pc i).doing s.slot) :
    Inv B m (((St.setStat { s with qhead := n, chain := s.chain.tail } h .free).call i (.push h)).setPc i p) := by
  have hcst : s.stat h = .chain := hh ▸ head_chain k
  obtain ⟨l, hl⟩ : ∃ l, s.chain = h :: n :: l := by
    have a := k.hd
    have b := k.link
    cases hc : s.chain with
    | nil => rw [hc] at a; cases a
    | cons x l =>
      rw [hc] at a b
      simp only [List.head?_cons, Option.some.injEq] at a
      rw [← hh] at a
      subst a
      cases l with
      | nil => rw [show (s.blk x).next = none from b] at hnx; cases hnx
      | cons y l => rw [b.1] at hnx; cases hnx; exact ⟨l, rfl⟩
  have hnd := k.nd
  rw [hl] at hnd
  have hnl : h ∉ n :: l := (List.nodup_cons.1 hnd).1
  have ha : h < s.fl.alloc := by
    rcases Nat.lt_or_ge h s.fl.alloc with hx | hx
    · exact hx
    · rw [(k.un h hx).1] at hcst; cases hcst
  have hph : s.fl.phase h = .used := by
    have := k.st h ha
    rw [hcst] at this; simpa using this
  have hc : s.fl.phase h = .used ∧ h < s.fl.alloc := ⟨hph, ha⟩
  have ec : FreeList.call s.fl i (.push h) = { s.fl with log := s.fl.log ++ [.push h], phase := upd s.fl.phase h (.leaving i), pc := upd s.fl.pc i (.push h) } := by
    simp only [FreeList.call, if_pos hc, FreeList.St.setPhase, FreeList.St.setPc]
  have hb : (FreeList.call s.fl i (.push h)).bad = false := by rw [ec]; exact k.bad
  have hfl := FreeList.inv_call k.fl (idle_ret hf) rfl hb
  generalize hs' : ((St.setStat { s with qhead := n, chain := s.chain.tail } h .free).call i (.push h)).setPc i p = s'
  have e1 : s'.fl = { s.fl with log := s.fl.log ++ [.push h], phase := upd s.fl.phase h (.leaving i), pc := upd s.fl.pc i (.push h) } := by rw [← hs', ← ec]; rfl
  have e2 : s'.blk = s.blk := by rw [← hs']; rfl
  have e3 : s'.qhead = n := by rw [← hs']; rfl
  have e4 : s'.chain = n :: l := by rw [← hs']; show s.chain.tail = _; rw [hl]; rfl
  have e5 : s'.stat = upd s.stat h .free := by rw [← hs']; rfl
  have e6 : s'.seen = s.seen ∧ s'.slot = s.slot ∧ s'.wr = s.wr ∧ s'.rd = s.rd ∧ s'.lk = s.lk ∧ s'.hid = s.hid ∧ s'.qtail = s.qtail ∧ s'.log = s.log := by
    rw [← hs']; exact ⟨rfl, rfl, rfl, rfl, rfl, rfl, rfl, rfl⟩
  obtain ⟨e7, e8, e9, e10, e11, e12, e13, e14⟩ := e6
  have e15 : s'.pc = upd s.pc i p := by rw [← hs']; rfl
  have hfl' : FreeList.Inv s'.fl := by rw [← hs']; exact hfl
  have hlast : s'.chain.getLast? = s.chain.getLast? := by rw [e4, hl, List.getLast?_cons_cons]
  clear hs'
  have hnsp : ∀ u, Spent B s u → u ≠ h := by
    intro u hu e; rw [e] at hu; have := hu.1; rw [hcst] at this; cases this
  have hsph : Spent B s' h := by
    refine ⟨?_, ?_, ?_, ?_, ?_⟩
    · rw [e5, upd_self]
    · rw [e2]; exact ht
    · rw [e2]; exact hhd
    · rw [e2, hnx]; simp
    · left; exact ⟨i, by rw [e1]; simp⟩
  have hsp : ∀ u, Spent B s u → Spent B s' u := by
    intro u hu
    have e := hnsp u hu
    simp only [Spent, e1, e2, e5, upd_apply, if_neg e]
    exact hu
  have hpush : ∀ u, (∃ j, s.fl.pc j = .push u) → ∃ j, s'.fl.pc j = .push u := by
    rintro u ⟨j, hj⟩
    refine ⟨j, ?_⟩
    rw [e1]
    show upd s.fl.pc i _ j = _
    rw [upd_other _ _ (fun e => by rw [e, hf] at hj; cases hj)]; exact hj
  have hun : ∀ u, Unmarked B s u → Unmarked B s' u := by
    intro u ⟨hu, hj⟩
    exact ⟨hsp u hu, hpush u hj⟩
  have hunh : Unmarked B s' h := ⟨hsph, i, by rw [e1]; simp⟩
  have hch : ∀ u, s'.stat u = .chain ↔ s.stat u = .chain ∧ u ≠ h := by
    intro u; rw [e5, upd_apply]; split
    · rename_i e; simp [e]
    · rename_i e; simp [e]
  have hcs : ∀ u, s.stat u = .chain → s'.stat u = .chain ∨ Unmarked B s' u := by
    intro u hu
    by_cases e : u = h
    · rw [e]; exact .inr hunh
    · exact .inl ((hch u).2 ⟨hu, e⟩)
  have hlive : ∀ b c, Live s' b c ↔ Live s b c := by
    intro b c
    simp only [Live, hch, e2, e10]
    constructor
    · rintro (hx | hx)
      · exact .inl ⟨hx.1.1, hx.2⟩
      · exact .inr hx
    · rintro (hx | hx)
      · refine .inl ⟨⟨hx.1, ?_⟩, hx.2⟩
        intro e; rw [e, hhd, ht] at hx; omega
      · exact .inr hx
  have hhid : ∀ u j, s.hid u = some j → u ≠ h := by
    intro u j hu e
    have := (k.hid u j hu).2.1
    rw [e, ht] at this; omega
  have hgood : ∀ u, Good B s u → Good B s' u := by
    intro u hg
    rcases hg with hg | hg
    · by_cases e : u = h
      · rw [e]; exact .inr hsph
      · exact .inl ⟨(hch u).2 ⟨hg.1, e⟩, by rw [e12]; exact hg.2⟩
    · exact .inr (hsp u hg)
  have hg : Glob B s' := by
    refine ⟨hfl', by rw [e1]; exact k.bad, by rw [e3, e4]; rfl, ?_, ?_, ?_, ?_, ?_, ?_, ?_, ?_, ?_, ?_, ?_, ?_, ?_, ?_, ?_, ?_, ?_⟩
    · have := linked_tail k.link
      rw [hl] at this; rw [e2, e4]; exact this
    · rw [e4]; exact (List.nodup_cons.1 hnd).2
    · intro u
      have := k.mem u
      rw [hl] at this
      rw [e4, hch, ← this]
      constructor
      · intro hx; exact ⟨List.mem_cons_of_mem _ hx, fun e => hnl (e ▸ hx)⟩
      · intro hx
        rcases List.mem_cons.1 hx.1 with hy | hy
        · exact absurd hy hx.2
        · exact hy
    · intro u hu; rw [e2]; exact k.full u ((hch u).1 hu).1
    · intro u hu; rw [e2]; exact k.tl u ((hch u).1 hu).1
    · intro u hu
      rw [e4] at hu
      rw [e2]; apply k.zero u
      rw [hl]; exact List.mem_cons_of_mem _ hu
    · intro u hu; rw [e2]; exact k.ht u ((hch u).1 hu).1
    · intro u hu
      rw [e5, e1]
      rw [e1] at hu
      show upd s.stat h .free u = .free ↔ upd s.fl.phase h (.leaving i) u ≠ .used
      rw [upd_apply, upd_apply]
      split
      · simp
      · exact k.st u hu
    · intro u hu
      rw [e1] at hu
      have hu' : s.fl.alloc ≤ u := hu
      have := k.un u hu'
      rw [e5, e7, upd_other _ _ (by omega)]; exact this
    · rw [e11, e13, hlast]; exact k.qt1
    · rw [e7, e13]; exact k.qs
    · intro n' j hn'
      rw [e12] at hn'
      have := k.hid n' j hn'
      rw [e2, e1, e7]
      exact ⟨(hch n').2 ⟨this.1, hhid n' j hn'⟩, this.2⟩
    · intro u hs hfr
      rw [e7] at hs
      rw [e1] at hfr
      rcases k.fr u hs hfr with hx | hx
      · exact hcs u hx
      · exact .inr (hun u hx)
    · intro u hu hfr
      by_cases e : u = h
      · rw [e]; exact .inr hunh.2
      · rw [e5, upd_other _ _ e] at hfr
        rw [e1] at hu
        rcases k.fz u hu hfr with hx | hx
        · left; rw [e1]; exact hx
        · exact .inr (hpush u hx)
    · intro b c hl; rw [e9, e2, e8]; exact k.sl b c ((hlive b c).1 hl)
    · intro b c hl; rw [e9, e2]; exact k.sd b c (fun hx => hl ((hlive b c).2 hx))
    · intro b c hr
      rw [e10] at hr
      have := k.rdk b c hr
      rw [e2]
      refine ⟨this.1, ?_⟩
      rcases this.2 with hx | hx
      · rcases hcs b hx with hy | hy
        · exact .inl hy
        · exact .inr hy.1
      · exact .inr (hsp b hx)
  have hpcj : ∀ j, j ≠ i → s'.fl.pc j = s.fl.pc j := by
    intro j hj; simp only [e1, upd_other _ _ hj]
  refine inv_mk (s := s) (i := i) k hg (fun j hj => by rw [e15]; exact upd_other _ _ hj) (fun j _ => by rw [e1]) hpcj ?_ ?_ ?_ ?_ ?_ ?_ ?_ ?_ ?_ (leg_same e14 ?_ ?_)
  · intro j hj
    have hsing : m ≠ .single j := by
      rintro rfl
      rcases hm with hm | hm
      · cases hm; exact hj rfl
      · cases hm
    refine ⟨?_, ?_, ?_, fun u _ => hgood u, ?_, fun u _ => by rw [e2]; exact ⟨Nat.le_refl _, id⟩, fun _ _ _ hx => by rw [e2]; exact hx,
      fun _ u _ => by rw [e2]; exact ⟨Nat.le_refl _, id⟩, fun _ _ _ => by rw [e2, e8]; exact ⟨rfl, rfl⟩,
      fun _ _ _ => by rw [e2, e8]; exact ⟨rfl, id⟩, fun _ hx => by rw [e7]; exact hx, ?_, ?_, fun hx => absurd hx hsing, fun hx => absurd hx hsing, fun hx => absurd hx hsing⟩
    · intro u hu; rw [hpcj j hj] at hu; exact .inl hu
    · intro u _ hu; rw [hpcj j hj] at hu; exact .inl hu
    · intro u hu
      have e : u ≠ h := fun e => by rw [e, hcst] at hu; cases hu
      rw [e5, upd_other _ _ e, e2, e1]
      exact ⟨hu, rfl, rfl⟩
    · intro _ u _ hg
      rcases hg with hg | hg
      · rw [← hg, ← hh]; exact .inr hsph
      · exact .inr (hsp u hg)
    · intro u hx; rw [e12, e1]; exact ⟨hx, rfl⟩
    · intro e t u _ h8 h9
      refine ⟨by rw [e1]; exact h8, ?_⟩
      rcases h9 with h9 | h9
      · exact hcs u h9
      · exact .inr (hun u h9)
  · have := k.qt2; rw [hlast, e11, e12, e13, e15]; simp only [upd_apply]; grind
  · have := k.lk; rw [e11, e15]; simp only [upd_apply]; grind
  · have := k.rd; rw [e10, e15]; simp only [upd_apply]; grind
  · have := k.wr; rw [e9, e15]; simp only [upd_apply]; grind
  · rw [e15, upd_self]; exact h4
  · intro u hu; rw [e1] at hu; simp at hu
  · rw [e1, e15]
    simp only [upd_self]
    rw [k.held i, heldOf, heldOf, h5.1, h5.2.1, h5.2.2]
  · rw [e15, upd_self]; exact h6 _
  · rw [e2, e8, e4, hl]; symm; apply cont_nothing; rw [ht, hhd]; exact Nat.le_refl _
  · rw [e15, e8, upd_self]; exact h7

end Queue
end Salticidae
