import Verif.Lemmas.QueueStep1
/-!
Steps inside the operations of the free list.
-/
namespace Salticidae
namespace Queue
open FreeList (upd upd_apply upd_self upd_other)

/-- What a step of the free list means for the queue. -/
structure Micro (s s' : FreeList.St) (i : Nat) (ch : Bool) : Prop where
  alloc : s'.alloc = s.alloc
  pc : ∀ j, j ≠ i → s'.pc j = s.pc j
  held : ∀ j, j ≠ i → s'.held j = s.held j
  freed : ∀ u, (s'.node u).freed = ((s.node u).freed || (s.pc i == .push u))
  used : ∀ u, s.phase u = .used → s'.phase u = .used
  left : ∀ u, s.phase u ≠ .used → s'.phase u = .used → s.phase u = .listed ∨ ∃ j, s.phase u = .entering j
  spent : ∀ u, ((∃ j, s.phase u = .leaving j) ∨ s.phase u = .pending) → (∃ j, u ∈ s.held j) ∨ (∃ j, s.pc j = .push u) →
    (∃ j, s'.phase u = .leaving j) ∨ s'.phase u = .pending
  noPush : ∀ u, s'.pc i ≠ .push u
  ref : ∀ u, (s'.pc i = .ref1 u ∨ ∃ n, s'.pc i = .ref2 u n) → s.pc i = .ref1 u
  got : ∀ u, gotF (s'.pc i) = some u → gotF (s.pc i) = some u ∨ (s.phase u ≠ .used ∧ s'.phase u = .used)
  heldi : (s'.held i = s.held i ∧ s'.pc i ≠ .ret .ok) ∨
    (∃ u n, s.pc i = .ref2 u n ∧ s'.pc i = .ret .ok ∧ s'.held i = u :: s.held i ∧ ch = true ∧ (s.node u).refcnt = n)

theorem kpc_noPush (c : FreeList.K) (u : Nat) : c.pc ≠ .push u := by cases c <;> simp [FreeList.K.pc]
theorem kpc_noRef (c : FreeList.K) (u : Nat) : ¬ (c.pc = .ref1 u ∨ ∃ n, c.pc = .ref2 u n) := by cases c <;> simp [FreeList.K.pc]
theorem kpc_got (c : FreeList.K) : gotF c.pc = gotK c := by cases c <;> simp [FreeList.K.pc, gotF, gotK]
theorem kpc_ok (c : FreeList.K) : c.pc ≠ .ret .ok := by cases c <;> simp [FreeList.K.pc]

theorem micro_spent_release {s : FreeList.St} {i v : Nat} {b : Bool} {c : FreeList.K} (k : FreeList.Inv s) (hp : s.pc i = .rel v b c) (u : Nat)
    (h1 : (∃ j, s.phase u = .leaving j) ∨ s.phase u = .pending) (h2 : (∃ j, u ∈ s.held j) ∨ (∃ j, s.pc j = .push u)) :
    (∃ j, (FreeList.release s i v b c).phase u = .leaving j) ∨ (FreeList.release s i v b c).phase u = .pending := by
  by_cases huv : u = v
  · subst huv
    rcases h2 with ⟨j, hj⟩ | ⟨j, hj⟩
    · -- someone else's reference
      have hc : 0 < (s.held j).count u := List.count_pos_iff.2 hj
      have h3 := k.hold j u
      have h4 := List.count_le_length (a := j) (l := s.holders u)
      have h5 := k.cnt u
      have h6 := k.hold i u
      have h7 := List.count_le_length (a := i) (l := s.holders u)
      rw [hp] at h6
      cases b with
      | true =>
        have h8 := (k.lv u i).2 (by rw [hp]; rfl)
        have hn : (s.node u).refcnt ≠ 1 := by rw [h5, h8]; simp only [FreeList.Phase.base]; omega
        simp only [FreeList.release, FreeList.St.setCnt, FreeList.St.setPhase, FreeList.St.setPc]
        simp [hn]
      | false =>
        simp only [FreeList.Pc.holds, if_true] at h6
        have hlen : 2 ≤ (s.holders u).length := by
          by_cases hij : j = i
          · subst hij; omega
          · have : ∀ (l : List Nat), l.count i + l.count j ≤ l.length := by
              intro l
              induction l with
              | nil => simp
              | cons x l ih =>
                simp only [List.count_cons, List.length_cons]
                grind
            have := this (s.holders u)
            omega
        have hn : (s.node u).refcnt ≠ 1 := by rw [h5]; omega
        simp only [FreeList.release, FreeList.St.setCnt, FreeList.St.setPhase, FreeList.St.delHolder, FreeList.St.setPc]
        simpa [hn] using h1
    · have h3 := (k.lv u j).2 (by rw [hj]; rfl)
      cases b with
      | true =>
        have h4 := (k.lv u i).2 (by rw [hp]; rfl)
        rw [h3] at h4
        cases h4
        rw [hj] at hp; cases hp
      | false =>
        have h5 := k.cnt u
        have h6 := k.hold i u
        have h7 := List.count_le_length (a := i) (l := s.holders u)
        rw [hp] at h6
        simp only [FreeList.Pc.holds, if_true] at h6
        have hn : (s.node u).refcnt ≠ 1 := by rw [h5, h3]; simp only [FreeList.Phase.base]; omega
        simp only [FreeList.release, FreeList.St.setCnt, FreeList.St.setPhase, FreeList.St.delHolder, FreeList.St.setPc]
        simpa [hn] using h1
  · have : (FreeList.release s i v b c).phase u = s.phase u := by
      simp only [FreeList.release, FreeList.St.setCnt, FreeList.St.setPhase, FreeList.St.delHolder, FreeList.St.setPc]
      cases b <;> split <;> simp [upd_apply, huv]
    rw [this]; exact h1

theorem micro_facts {s s' : FreeList.St} {i : Nat} {ch : Bool} (k : FreeList.Inv s) (h : FreeList.micro s i ch = some s') : Micro s s' i ch := by
  have hlv := k.lv; have hpt := k.pt; have hen := k.en; have hmem := k.mem; have hch := k.chain
  have hq3 : ∀ a t c, s.pc i = .put3 a t c → s.phase a = .putting i := fun a t c e => (hpt a i).2 (by rw [e]; rfl)
  have hq4 : ∀ a c, s.pc i = .put4 a c → s.phase a = .entering i := fun a c e => (hen a i).2 (by rw [e]; rfl)
  have hq1 : ∀ a, s.pc i = .push a → s.phase a = .leaving i := fun a e => (hlv a i).2 (by rw [e]; rfl)
  clear hlv hpt hen
  unfold FreeList.micro at h
  split at h
  · cases h
  all_goals simp only [Option.some.injEq] at h
  case h_5 v b c hp =>
    have hs := micro_spent_release k hp
    subst h
    have hv := k.lv v i
    have hcnt := k.cnt v
    have hfree : ∀ u, ((FreeList.release s i v b c).node u).freed = (s.node u).freed := by
      intro u
      simp only [FreeList.release, FreeList.St.setCnt, FreeList.St.setPhase, FreeList.St.delHolder, FreeList.St.setPc]
      cases b <;> split <;> simp [upd_apply] <;> grind
    have hpc : (FreeList.release s i v b c).pc = upd s.pc i c.pc ∨ (FreeList.release s i v b c).pc = upd s.pc i (.put1 v c) := by
      simp only [FreeList.release, FreeList.St.setCnt, FreeList.St.setPhase, FreeList.St.delHolder, FreeList.St.setPc]
      cases b <;> split <;> simp
    have hheld : (FreeList.release s i v b c).held = s.held := by
      simp only [FreeList.release, FreeList.St.setCnt, FreeList.St.setPhase, FreeList.St.delHolder, FreeList.St.setPc]
      cases b <;> split <;> rfl
    have hused : ∀ u, s.phase u = .used ↔ (FreeList.release s i v b c).phase u = .used := by
      intro u
      by_cases huv : u = v
      · subst huv
        rw [hp] at hv
        have hh := k.hold i u
        rw [hp] at hh
        have h7 := List.count_le_length (a := i) (l := s.holders u)
        cases b with
        | true =>
          have := hv.2 rfl
          simp only [FreeList.release, FreeList.St.setCnt, FreeList.St.setPhase, FreeList.St.setPc, this]
          split <;> simp
        | false =>
          simp only [FreeList.Pc.holds, if_true] at hh
          simp only [FreeList.release, FreeList.St.setCnt, FreeList.St.setPhase, FreeList.St.delHolder, FreeList.St.setPc]
          split
          · simp
          · rename_i hn
            simp only [ne_eq, Decidable.not_not] at hn
            have : s.phase u ≠ .used := by
              intro hx; rw [hx] at hcnt; simp only [FreeList.Phase.base] at hcnt; omega
            simp [this]
      · simp only [FreeList.release, FreeList.St.setCnt, FreeList.St.setPhase, FreeList.St.delHolder, FreeList.St.setPc]
        cases b <;> split <;> simp [upd_apply, huv]
    refine ⟨?_, ?_, ?_, ?_, fun u hu => (hused u).1 hu, fun u hu hu' => absurd ((hused u).2 hu') hu, hs, ?_, ?_, ?_, ?_⟩
    · simp only [FreeList.release, FreeList.St.setCnt, FreeList.St.setPhase, FreeList.St.delHolder, FreeList.St.setPc]
      cases b <;> split <;> rfl
    · intro j hj
      rcases hpc with hpc | hpc <;> rw [hpc, upd_other _ _ hj]
    · intro j _; rw [hheld]
    · intro u; rw [hfree, hp]; simp
    · intro u; rcases hpc with hpc | hpc <;> rw [hpc, upd_self]
      · exact kpc_noPush c u
      · simp
    · intro u; rcases hpc with hpc | hpc <;> rw [hpc, upd_self]
      · intro hh; exact absurd hh (kpc_noRef c u)
      · simp
    · intro u; rcases hpc with hpc | hpc <;> rw [hpc, upd_self, hp]
      · rw [kpc_got]; intro hh; exact .inl hh
      · intro hh; exact .inl hh
    · left; rw [hheld]; refine ⟨rfl, ?_⟩
      rcases hpc with hpc | hpc <;> rw [hpc, upd_self]
      · exact kpc_ok c
      · simp
  case h_14 v nv hp =>
    subst h
    split
    · rename_i hc
      simp only [Bool.and_eq_true, beq_iff_eq] at hc
      have hin : v ∈ s.list := by
        cases hl : s.list with
        | nil => rw [hl] at hch; rw [hch] at hc; cases hc.2
        | cons x l =>
          rw [hl] at hch
          have := hch.1
          rw [hc.2] at this
          cases this
          simp
      have hv := (hmem v).1 hin
      constructor <;> simp only [FreeList.St.setPhase, FreeList.St.setPc] <;> grind [upd_apply, gotF, gotK]
    · constructor <;> simp only [FreeList.St.setPc] <;> grind [upd_apply, gotF, gotK]
  all_goals (subst h; try split)
  all_goals
    constructor <;> simp only [FreeList.St.setPhase, FreeList.St.setPc, FreeList.St.setCnt, FreeList.St.setFreed, FreeList.St.setNext, FreeList.St.addHolder]
    all_goals grind [upd_apply, gotF, gotK, kpc_noPush, kpc_noRef, kpc_got, kpc_ok, FreeList.Pc.leaves, FreeList.Pc.puts, FreeList.Pc.enters]

variable {α : Type} [DecidableEq α]

theorem inv_micro {B : Nat} {m : Mode} {s : St α} {i : Nat} {ch : Bool} {fl' : FreeList.St} (k : Inv B m s) (h : FreeList.micro s.fl i ch = some fl')
    (hT : ∀ u, s.fl.pc i = .push u → ∀ j e t, s.pc j ≠ .e13 e true t u)
    (hH : ∀ u n, s.fl.pc i = .ref2 u n → s.pc i = .m2 u → ch = true → (s.fl.node u).refcnt = n → s.qhead = u) :
    Inv B m (afterMicro s i fl') := by
  have f := micro_facts k.fl h
  have hun := f.used
  have hst : ∀ u, s.stat u ≠ .free → (afterMicro s i fl').stat u = s.stat u := by
    intro u hu
    simp only [afterMicro]
    rw [if_neg]
    intro hc
    by_cases ha : u < s.fl.alloc
    · exact hu ((k.st u ha).2 hc.1)
    · exact hu (k.un u (by omega)).1
  have hch : ∀ u, s.stat u = .chain ↔ (afterMicro s i fl').stat u = .chain := by
    intro u
    constructor
    · intro hu; rw [hst u (by rw [hu]; simp)]; exact hu
    · intro hu
      by_cases hf : s.stat u = .free
      · simp only [afterMicro] at hu
        split at hu
        · cases hu
        · rw [hf] at hu; cases hu
      · rw [hst u hf] at hu; exact hu
  have hsp : ∀ u, Spent B s u → ((∃ j, u ∈ s.fl.held j) ∨ (∃ j, s.fl.pc j = .push u)) → Spent B (afterMicro s i fl') u := by
    intro u hu hj
    obtain ⟨h1, h2, h3, h4, h5⟩ := hu
    have h6 := f.spent u h5 hj
    refine ⟨?_, h2, h3, h4, h6⟩
    simp only [afterMicro]
    rw [if_neg]
    · exact h1
    · intro hc; rcases h6 with ⟨j, h6⟩ | h6 <;> rw [hc.2] at h6 <;> cases h6
  have hpl : ∀ u, s.fl.pc i = .push u → s.stat u = .free ∧ u < s.fl.alloc := by
    intro u hu
    have h1 := (k.fl.lv u i).2 (by rw [hu]; rfl)
    have h2 := k.fl.ptr i u (by rw [hu]; rfl)
    exact ⟨(k.st u h2).2 (by rw [h1]; simp), h2⟩
  have hum : ∀ u, Unmarked B s u → s.fl.pc i ≠ .push u → Unmarked B (afterMicro s i fl') u := by
    intro u ⟨h1, j, h2⟩ h3
    refine ⟨hsp u h1 (.inr ⟨j, h2⟩), j, ?_⟩
    show fl'.pc j = _
    rw [f.pc j (fun e => h3 (e ▸ h2))]; exact h2
  have hfn : ∀ u, s.fl.pc i ≠ .push u → (fl'.node u).freed = (s.fl.node u).freed := by
    intro u hu; rw [f.freed]; simp [hu]
  have hgood : ∀ j u, u ∈ s.fl.held j → Good B s u → Good B (afterMicro s i fl') u := by
    intro j u hj hg
    rcases hg with hg | hg
    · exact .inl ⟨(hch u).1 hg.1, hg.2⟩
    · exact .inr (hsp u hg (.inl ⟨j, hj⟩))
  have hrely : ∀ j, Rely B m s (afterMicro s i fl') j := by
    intro j
    refine ⟨?_, ?_, ?_, hgood j, ?_, fun u _ => ⟨Nat.le_refl _, id⟩, fun _ _ _ hx => hx, fun _ u _ => ⟨Nat.le_refl _, id⟩, fun _ _ _ => ⟨rfl, rfl⟩,
      fun _ _ _ => ⟨rfl, id⟩, ?_, ?_, ?_, fun _ => rfl, fun _ _ _ => rfl, fun _ _ _ _ _ _ => rfl⟩
    · intro u hu
      by_cases e : j = i
      · subst e
        rcases f.got u hu with h1 | h1
        · exact .inl h1
        · right
          refine ⟨?_, ?_⟩
          · simp only [afterMicro]; rw [if_pos h1]
          · have hl := f.left u h1.1 h1.2
            have ha : u < s.fl.alloc := by
              rcases Nat.lt_or_ge u s.fl.alloc with h2 | h2
              · exact h2
              · exact absurd (k.fl.fresh u h2).2 h1.1
            rcases k.fz u ha ((k.st u ha).2 h1.1) with h2 | ⟨j', h2⟩
            · show (fl'.node u).freed = true
              rw [f.freed, h2]; rfl
            · have := (k.fl.lv u j').2 (by rw [h2]; rfl)
              rw [this] at hl; simp at hl
      · left
        have : (afterMicro s i fl').fl.pc j = s.fl.pc j := f.pc j e
        rw [this] at hu; exact hu
    · intro h' hp hok
      by_cases e : j = i
      · subst e
        rcases f.heldi with h1 | ⟨u, n, h1, h2, h3, h4, h5⟩
        · exact absurd hok h1.2
        · right
          have h6 := k.flp j u (.inr ⟨n, h1⟩)
          rw [hp] at h6
          simp only [Pc.wants, Option.some.injEq] at h6
          subst h6
          exact .inl (hH _ n h1 hp h4 h5)
      · left
        have : (afterMicro s i fl').fl.pc j = s.fl.pc j := f.pc j e
        rw [this] at hok; exact hok
    · intro u hu
      refine ⟨by rw [hst u (by rw [hu]; simp)]; exact hu, rfl, ?_⟩
      apply hfn
      intro hp
      rw [(hpl u hp).1] at hu; cases hu
    · intro _ u hj hg
      rcases hg with hg | hg
      · exact .inl hg
      · exact .inr (hsp u hg (.inl ⟨j, hj⟩))
    · intro u hu; simp [afterMicro, hu]
    · intro n hn
      refine ⟨hn, hfn n ?_⟩
      intro hp
      have := (k.hid n j hn).1
      rw [(hpl n hp).1] at this; cases this
    · intro e t n hp h1 h2
      have h3 : s.fl.pc i ≠ .push n := fun hx => hT n hx j e t hp
      refine ⟨(hfn n h3).trans h1, ?_⟩
      rcases h2 with h2 | h2
      · exact .inl ((hch n).1 h2)
      · exact .inr (hum n h2 h3)
  have hal : (afterMicro s i fl').fl.alloc = s.fl.alloc := f.alloc
  have hlive : ∀ b c, Live (afterMicro s i fl') b c ↔ Live s b c := by
    intro b c
    simp only [Live, ← hch b]
    rfl
  have hg : Glob B (afterMicro s i fl') := by
    refine ⟨FreeList.inv_micro k.fl h, (FreeList.bad_micro h).trans k.bad, k.hd, k.link, k.nd, ?_, ?_, ?_, k.zero, ?_, ?_, ?_, k.qt1, ?_, ?_, ?_, ?_, ?_, ?_, ?_⟩
    · intro u; rw [← hch u]; exact k.mem u
    · intro u hu; exact k.full u ((hch u).2 hu)
    · intro u hu; exact k.tl u ((hch u).2 hu)
    · intro u hu; exact k.ht u ((hch u).2 hu)
    · intro u hu
      rw [hal] at hu
      have h1 := k.st u hu
      simp only [afterMicro]
      by_cases h2 : s.fl.phase u = .used
      · have h3 := f.used u h2
        simp [h2, h3, h1]
      · by_cases h3 : fl'.phase u = .used
        · simp [h2, h3]
        · simp [h2, h3, h1]
    · intro u hu
      rw [hal] at hu
      have h1 := k.un u hu
      have h2 := (k.fl.fresh u hu).2
      simp only [afterMicro, h2]
      refine ⟨by simp [h1.1], ?_⟩
      rw [h1.2]
      simp only [Bool.false_or, beq_eq_false_iff_ne, ne_eq]
      intro hx
      have := (hpl u hx).2
      omega
    · show (s.seen s.qtail || _) = true
      rw [k.qs]; rfl
    · intro n j hn
      have h1 := k.hid n j hn
      have h2 : s.fl.pc i ≠ .push n := fun hx => by rw [(hpl n hx).1] at h1; cases h1.1
      refine ⟨(hch n).1 h1.1, h1.2.1, ?_⟩
      rcases h1.2.2 with h3 | h3
      · exact .inl ((hfn n h2).trans h3)
      · right; show (s.seen n || _) = false; simp [h3, h2]
    · intro u hs hf
      have h2 : s.fl.pc i ≠ .push u := by
        intro hx
        have : (fl'.node u).freed = false := hf
        rw [f.freed, hx] at this; simp at this
      have h3 : s.seen u = true := by simpa [afterMicro, h2] using hs
      rcases k.fr u h3 ((hfn u h2).symm.trans hf) with h4 | h4
      · exact .inl ((hch u).1 h4)
      · exact .inr (hum u h4 h2)
    · intro u hu hf
      rw [hal] at hu
      have h1 : s.stat u = .free := by
        simp only [afterMicro] at hf
        split at hf
        · cases hf
        · exact hf
      rcases k.fz u hu h1 with h2 | ⟨j, h2⟩
      · left; show (fl'.node u).freed = true; rw [f.freed, h2]; rfl
      · by_cases e : j = i
        · subst e; left; show (fl'.node u).freed = true; rw [f.freed, h2]; simp
        · right; exact ⟨j, (f.pc j e).trans h2⟩
    · intro b c hl; exact k.sl b c ((hlive b c).1 hl)
    · intro b c hl; exact k.sd b c (fun hx => hl ((hlive b c).2 hx))
    · intro b c hr
      have h1 := k.rdk b c hr
      refine ⟨h1.1, ?_⟩
      rcases h1.2 with h2 | h2
      · exact .inl ((hch b).1 h2)
      · -- a reader holds a reference
        obtain ⟨j, hj⟩ := Option.ne_none_iff_exists'.1 hr
        have h3 := (k.rd b c j).1 hj
        have h4 := k.held j
        have h5 := k.loc j
        have h6 := head_chain k
        cases hp : s.pc j <;> rw [hp] at h3 h4 h5 <;> simp only [Pc.reads, reduceCtorEq, Option.some.injEq, Prod.mk.injEq] at h3
        all_goals obtain ⟨e1, e2⟩ := h3
        all_goals simp only [Loc] at h5
        case m7 | m8 | m9 =>
          right
          refine hsp b h2 (.inl ⟨j, ?_⟩)
          rw [h4, heldOf]; simp [Pc.wants, Pc.refs, e1]
        all_goals
          first
          | (rw [h5] at e1; rw [← e1, h2.1] at h6; cases h6)
          | (rw [h5.1] at e1; rw [← e1, h2.1] at h6; cases h6)
          | skip
        all_goals
          have := h2.1
          rw [← e1] at this; simp_all
  have hloc : Loc B (afterMicro s i fl') i (s.pc i) := loc_stable k (hrely i)
  refine inv_mk (s := s) (i := i) k hg (fun _ _ => rfl) f.held f.pc (fun j _ => hrely j) k.qt2 k.lk k.rd k.wr (k.role i) ?_ ?_ hloc (leg_same rfl rfl rfl)
  · intro u hu
    exact k.flp i u (.inl (f.ref u hu))
  · have h1 := k.held i
    rcases f.heldi with h2 | ⟨u, n, h2, h3, h4, _, _⟩
    · show fl'.held i = heldOf (s.pc i) (fl'.pc i)
      rw [h2.1, h1]
      have h3 : s.fl.pc i ≠ .ret .ok := by
        intro hx; unfold FreeList.micro at h; rw [hx] at h; cases h
      simp only [heldOf]
      split
      · simp [h2.2, h3]
      · rfl
    · have h5 := k.flp i u (.inr ⟨n, h2⟩)
      show fl'.held i = heldOf (s.pc i) (fl'.pc i)
      rw [h4, h1, h3]
      simp [heldOf, h5, h2]

end Queue
end Salticidae
