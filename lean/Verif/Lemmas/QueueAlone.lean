import Verif.Lemmas.QueueProg
/-!
Operations of the queues that run alone return.
-/
namespace Salticidae
namespace Queue
open FreeList (upd upd_apply upd_self upd_other)

variable {α : Type} [DecidableEq α] {B : Nat} {m : Mode} {i : Nat} {s : St α}

/-- What a step inside the free list leaves as it is. -/
structure Same (s s' : St α) : Prop where
  pc : s'.pc = s.pc
  blk : s'.blk = s.blk
  qh : s'.qhead = s.qhead
  qt : s'.qtail = s.qtail
  ch : s'.chain = s.chain

theorem same_refl (s : St α) : Same s s := ⟨rfl, rfl, rfl, rfl, rfl⟩
theorem same_trans {s t u : St α} (h : Same s t) (g : Same t u) : Same s u :=
  ⟨g.pc.trans h.pc, g.blk.trans h.blk, g.qh.trans h.qh, g.qt.trans h.qt, g.ch.trans h.ch⟩

theorem not_idle_of_fl (k : Alone B m i s) (hf : retF (s.fl.pc i) = false) : ¬ Idle s i := by
  rintro ⟨r, h⟩
  have := k.prog.fit i
  rw [h] at this
  simp only [Fit] at this
  rw [hf] at this; cases this

theorem micro_go (hB : 0 < B) (k : Alone B m i s) (hf : retF (s.fl.pc i) = false)
    (H : ∀ s', Alone B m i s' → Same s s' → FreeList.micro s.fl i true = some s'.fl → Done B i s') : Done B i s := by
  refine done_go hB k (not_idle_of_fl k hf) (fun s' h A => ?_)
  simp only [step] at h
  split at h
  · rename_i r hr; rw [hr] at hf; cases hf
  · simp only [Option.map_eq_some_iff] at h
    obtain ⟨fl, h1, h2⟩ := h
    subst h2
    exact H _ A ⟨rfl, rfl, rfl, rfl, rfl⟩ h1

/-- The others are in no operation of the free list. -/
theorem alone_ret (k : Alone B m i s) {j : Nat} (hj : j ≠ i) : ∃ r, s.fl.pc j = .ret r := by
  obtain ⟨x, h⟩ := k.others j hj
  have := k.prog.fit j
  rw [h] at this
  simp only [Fit] at this
  generalize s.fl.pc j = f at this
  cases f <;> first | exact ⟨_, rfl⟩ | cases this

macro "fl_simp" "at" h:ident : tactic => `(tactic| simp only [FreeList.micro, FreeList.release, FreeList.St.setPc, FreeList.St.setCnt, FreeList.St.addHolder, FreeList.St.setFreed, FreeList.St.setNext, FreeList.St.setPhase, FreeList.St.delHolder, Option.some.injEq] at $h:ident)

/-! ## release_ref -/

/-- The end of an operation of the free list. -/
def EndsIn (B : Nat) (m : Mode) (i : Nat) (s : St α) (f : FreeList.Pc) : Prop := ∀ s', Alone B m i s' → Same s s' → s'.fl.pc i = f → Done B i s'

theorem ends_same {s s' : St α} {f : FreeList.Pc} (h : Same s s') (H : EndsIn B m i s f) : EndsIn B m i s' f := fun t A g => H t A (same_trans h g)

theorem put4_go (hB : 0 < B) (k : Alone B m i s) {u : Nat} {c : FreeList.K} (hp : s.fl.pc i = .put4 u c) (H : EndsIn B m i s c.pc) : Done B i s := by
  refine micro_go hB k (by rw [hp]; rfl) (fun s' A g h => H s' A g ?_)
  fl_simp at h
  simp only [hp, Option.some.injEq] at h
  rw [← h]; exact upd_self ..

theorem put1_go (hB : 0 < B) (k : Alone B m i s) {u : Nat} {c : FreeList.K} (hp : s.fl.pc i = .put1 u c) (H : EndsIn B m i s c.pc) : Done B i s := by
  refine micro_go hB k (by rw [hp]; rfl) (fun s1 A1 g1 h1 => ?_)
  fl_simp at h1
  simp only [hp, Option.some.injEq] at h1
  have p1 : s1.fl.pc i = .put2 u s1.fl.top c := by rw [← h1]; first | exact upd_self .. | simp [upd]
  refine micro_go hB A1 (by rw [p1]; rfl) (fun s2 A2 g2 h2 => ?_)
  fl_simp at h2
  simp only [p1, Option.some.injEq] at h2
  have p2 : s2.fl.pc i = .put3 u s2.fl.top c := by rw [← h2]; first | exact upd_self .. | simp [upd]
  refine micro_go hB A2 (by rw [p2]; rfl) (fun s3 A3 g3 h3 => ?_)
  fl_simp at h3
  simp only [p2, Option.some.injEq, BEq.rfl, Bool.and_self, if_true] at h3
  exact put4_go hB A3 (by rw [← h3]; first | exact upd_self .. | simp [upd]) (ends_same (same_trans g1 (same_trans g2 g3)) H)

theorem put3_go (hB : 0 < B) (k : Alone B m i s) {u : Nat} {t : Option Nat} {c : FreeList.K} (hp : s.fl.pc i = .put3 u t c) (H : EndsIn B m i s c.pc) : Done B i s := by
  refine micro_go hB k (by rw [hp]; rfl) (fun s1 A1 g1 h1 => ?_)
  fl_simp at h1
  simp only [hp, Option.some.injEq] at h1
  split at h1
  · exact put4_go hB A1 (by rw [← h1]; first | exact upd_self .. | simp [upd]) (ends_same g1 H)
  · exact put1_go hB A1 (by rw [← h1]; first | exact upd_self .. | simp [upd]) (ends_same g1 H)

theorem put2_go (hB : 0 < B) (k : Alone B m i s) {u : Nat} {t : Option Nat} {c : FreeList.K} (hp : s.fl.pc i = .put2 u t c) (H : EndsIn B m i s c.pc) : Done B i s := by
  refine micro_go hB k (by rw [hp]; rfl) (fun s1 A1 g1 h1 => ?_)
  fl_simp at h1
  simp only [hp, Option.some.injEq] at h1
  exact put3_go hB A1 (by rw [← h1]; first | exact upd_self .. | simp [upd]) (ends_same g1 H)

theorem rel_go (hB : 0 < B) (k : Alone B m i s) {u : Nat} {b : Bool} {c : FreeList.K} (hp : s.fl.pc i = .rel u b c) (H : EndsIn B m i s c.pc) : Done B i s := by
  refine micro_go hB k (by rw [hp]; rfl) (fun s1 A1 g1 h1 => ?_)
  fl_simp at h1
  simp only [hp, Option.some.injEq] at h1
  split at h1
  · refine H s1 A1 g1 ?_
    rw [← h1]; exact upd_self ..
  · exact put1_go hB A1 (by rw [← h1]; first | exact upd_self .. | simp [upd]) (ends_same g1 H)

/-- release_ref, from anywhere. -/
theorem relF_go (hB : 0 < B) (k : Alone B m i s) (hf : relF (s.fl.pc i) = true) (H : EndsIn B m i s (.ret .none)) : Done B i s := by
  cases hp : s.fl.pc i <;> rw [hp] at hf
  case rel u b c => cases c <;> first | exact rel_go hB k hp H | cases hf
  case put1 u c => cases c <;> first | exact put1_go hB k hp H | cases hf
  case put2 u t c => cases c <;> first | exact put2_go hB k hp H | cases hf
  case put3 u t c => cases c <;> first | exact put3_go hB k hp H | cases hf
  case put4 u c => cases c <;> first | exact put4_go hB k hp H | cases hf
  case ret r => cases r <;> first | exact H s k (same_refl s) hp | cases hf
  all_goals cases hf

/-- push, from anywhere. -/
theorem pushF_go (hB : 0 < B) (k : Alone B m i s) (hf : pushF (s.fl.pc i) = true) (H : EndsIn B m i s (.ret .none)) : Done B i s := by
  by_cases hr : relF (s.fl.pc i) = true
  · exact relF_go hB k hr H
  · cases hp : s.fl.pc i <;> rw [hp] at hf hr
    case push u =>
      refine micro_go hB k (by rw [hp]; rfl) (fun s1 A1 g1 h1 => ?_)
      fl_simp at h1
      simp only [hp, Option.some.injEq] at h1
      exact rel_go hB A1 (c := .ret) (by rw [← h1]; exact upd_self ..) (ends_same g1 H)
    all_goals exact absurd hf hr

/-! ## pop -/

theorem top_ref (k : Alone B m i s) (he : (s.fl.pc i).enters = none) {u : Nat} (h : s.fl.top = some u) : (s.fl.node u).refcnt ≠ 0 := by
  have h1 : u ∈ s.fl.list := by
    have := k.inv.fl.chain
    rw [h] at this
    generalize s.fl.list = l at this
    cases l with
    | nil => simp [FreeList.Chain] at this
    | cons v l => simp only [FreeList.Chain, Option.some.injEq] at this; simp [this.1]
  have h2 := (k.inv.fl.mem u).1 h1
  have h3 := k.inv.fl.cnt u
  rcases h2 with h2 | ⟨j, h2⟩
  · rw [h2] at h3; simp only [FreeList.Phase.base] at h3; omega
  · have h4 := (k.inv.fl.en u j).1 h2
    by_cases hj : j = i
    · rw [hj, he] at h4; cases h4
    · obtain ⟨r, hr⟩ := alone_ret k hj
      rw [hr] at h4; cases h4

/-- The end of pop. -/
def Pops (B : Nat) (m : Mode) (i : Nat) (s : St α) : Prop := EndsIn B m i s (.ret .empty) ∧ ∀ u, EndsIn B m i s (.ret (.popped u))

theorem pops_same {s s' : St α} (h : Same s s') (H : Pops B m i s) : Pops B m i s' := ⟨ends_same h H.1, fun u => ends_same h (H.2 u)⟩

theorem pop1_go (hB : 0 < B) (k : Alone B m i s) (hp : s.fl.pc i = .pop1) (H : Pops B m i s) : Done B i s := by
  refine micro_go hB k (by rw [hp]; rfl) (fun s1 A1 g1 h1 => ?_)
  fl_simp at h1
  simp only [hp, Option.some.injEq] at h1
  split at h1
  · exact H.1 s1 A1 g1 (by rw [← h1]; first | exact upd_self .. | simp [upd])
  · rename_i u hu
    have p1 : s1.fl.pc i = .pop2 u := by rw [← h1]; first | exact upd_self .. | simp [upd]
    have t1 : s1.fl.top = some u := by rw [← h1]; exact hu
    have r1 := top_ref A1 (by rw [p1]; rfl) t1
    refine micro_go hB A1 (by rw [p1]; rfl) (fun s2 A2 g2 h2 => ?_)
    fl_simp at h2
    simp only [p1, Option.some.injEq, r1, if_false] at h2
    have p2 : s2.fl.pc i = .pop3 u (s2.fl.node u).refcnt := by rw [← h2]; first | exact upd_self .. | simp [upd]
    have t2 : s2.fl.top = some u := by rw [← h2]; exact t1
    refine micro_go hB A2 (by rw [p2]; rfl) (fun s3 A3 g3 h3 => ?_)
    fl_simp at h3
    simp only [p2, Option.some.injEq, BEq.rfl, Bool.and_self, if_true] at h3
    have p3 : s3.fl.pc i = .pop4 u := by rw [← h3]; first | exact upd_self .. | simp [upd]
    have t3 : s3.fl.top = some u := by rw [← h3]; exact t2
    refine micro_go hB A3 (by rw [p3]; rfl) (fun s4 A4 g4 h4 => ?_)
    fl_simp at h4
    simp only [p3, Option.some.injEq] at h4
    have p4 : s4.fl.pc i = .pop5 u (s4.fl.node u).next := by rw [← h4]; first | exact upd_self .. | simp [upd]
    have t4 : s4.fl.top = some u := by rw [← h4]; exact t3
    refine micro_go hB A4 (by rw [p4]; rfl) (fun s5 A5 g5 h5 => ?_)
    fl_simp at h5
    simp only [p4, t4, Option.some.injEq, BEq.rfl, Bool.and_self, if_true] at h5
    refine rel_go hB A5 (u := u) (b := false) (c := .got u) (by rw [← h5]; first | exact upd_self .. | simp [upd]) ?_
    exact ends_same (same_trans g1 (same_trans g2 (same_trans g3 (same_trans g4 g5)))) (H.2 u)

theorem popG_go (hB : 0 < B) (k : Alone B m i s) (hf : popG (s.fl.pc i) = true) (H : Pops B m i s) : Done B i s := by
  have HK : ∀ (s' : St α) (c : FreeList.K), Same s s' → gotK' c = true → EndsIn B m i s' c.pc := by
    intro s' c g hc t A g' e
    cases c with
    | ret => cases hc
    | again => exact pop1_go hB A e (pops_same (same_trans g g') H)
    | got u => exact H.2 u t A (same_trans g g') e
  have P3 : ∀ (s' : St α) (u n : Nat), Alone B m i s' → Same s s' → s'.fl.pc i = .pop4 u ∨ (∃ nv, s'.fl.pc i = .pop5 u nv) → Done B i s' := by
    have P5 : ∀ (s' : St α) (u : Nat) nv, Alone B m i s' → Same s s' → s'.fl.pc i = .pop5 u nv → Done B i s' := by
      intro s' u nv A g e
      refine micro_go hB A (by rw [e]; rfl) (fun s1 A1 g1 h1 => ?_)
      fl_simp at h1
      simp only [e, Option.some.injEq] at h1
      split at h1
      · exact rel_go hB A1 (u := u) (b := false) (c := .got u) (by rw [← h1]; first | exact upd_self .. | simp [upd]) (HK s1 _ (same_trans g g1) rfl)
      · exact rel_go hB A1 (u := u) (b := false) (c := .again) (by rw [← h1]; first | exact upd_self .. | simp [upd]) (HK s1 _ (same_trans g g1) rfl)
    intro s' u n A g e
    rcases e with e | ⟨nv, e⟩
    · refine micro_go hB A (by rw [e]; rfl) (fun s1 A1 g1 h1 => ?_)
      fl_simp at h1
      simp only [e, Option.some.injEq] at h1
      exact P5 s1 u _ A1 (same_trans g g1) (by rw [← h1]; exact upd_self ..)
    · exact P5 s' u nv A g e
  have P2 : ∀ (s' : St α) (u n : Nat), Alone B m i s' → Same s s' → s'.fl.pc i = .pop3 u n → Done B i s' := by
    intro s' u n A g e
    refine micro_go hB A (by rw [e]; rfl) (fun s1 A1 g1 h1 => ?_)
    fl_simp at h1
    simp only [e, Option.some.injEq] at h1
    split at h1
    · exact P3 s1 u 0 A1 (same_trans g g1) (.inl (by rw [← h1]; first | exact upd_self .. | simp [upd]))
    · exact pop1_go hB A1 (by rw [← h1]; first | exact upd_self .. | simp [upd]) (pops_same (same_trans g g1) H)
  cases hp : s.fl.pc i <;> rw [hp] at hf
  case rel u b c => exact rel_go hB k hp (HK s c (same_refl s) hf)
  case put1 u c => exact put1_go hB k hp (HK s c (same_refl s) hf)
  case put2 u t c => exact put2_go hB k hp (HK s c (same_refl s) hf)
  case put3 u t c => exact put3_go hB k hp (HK s c (same_refl s) hf)
  case put4 u c => exact put4_go hB k hp (HK s c (same_refl s) hf)
  case ret r => cases r <;> first | exact H.1 s k (same_refl s) hp | exact H.2 _ s k (same_refl s) hp | cases hf
  case pop1 => exact pop1_go hB k hp H
  case pop2 u =>
    refine micro_go hB k (by rw [hp]; rfl) (fun s1 A1 g1 h1 => ?_)
    fl_simp at h1
    simp only [hp, Option.some.injEq] at h1
    by_cases h0 : (s.fl.node u).refcnt = 0
    · exact pop1_go hB A1 (by rw [← h1]; simp [upd, h0]) (pops_same g1 H)
    · exact P2 s1 u (s.fl.node u).refcnt A1 g1 (by rw [← h1]; simp [upd, h0])
  case pop3 u n => exact P2 s u n k (same_refl s) hp
  case pop4 u => exact P3 s u 0 k (same_refl s) (.inl hp)
  case pop5 u nv => exact P3 s u 0 k (same_refl s) (.inr ⟨nv, hp⟩)
  all_goals cases hf

/-! ## get a reference -/

/-- In the queue: has a reference. -/
theorem chain_ref (k : Inv B m s) {u : Nat} (h : s.stat u = .chain) : (s.fl.node u).refcnt ≠ 0 := by
  have hu : u < s.fl.alloc := by
    rcases Nat.lt_or_ge u s.fl.alloc with h1 | h1
    · exact h1
    · rw [(k.un u h1).1] at h; cases h
  have h2 : s.fl.phase u = .used := by
    rcases Decidable.em (s.fl.phase u = .used) with h2 | h2
    · exact h2
    · rw [(k.st u hu).2 h2] at h; cases h
  have h3 := k.fl.cnt u
  rw [h2] at h3; simp only [FreeList.Phase.base] at h3; omega

/-- A reference to a block that has one. -/
theorem ref1_go (hB : 0 < B) (k : Alone B m i s) {u : Nat} (hp : s.fl.pc i = .ref1 u) (hr : (s.fl.node u).refcnt ≠ 0)
    (H : ∀ s', Alone B m i s' → Same s s' → s'.fl.pc i = .ret .ok → (s'.fl.node u).freed = (s.fl.node u).freed → Done B i s') : Done B i s := by
  refine micro_go hB k (by rw [hp]; rfl) (fun s1 A1 g1 h1 => ?_)
  fl_simp at h1
  simp only [hp, Option.some.injEq, hr, if_false] at h1
  have p1 : s1.fl.pc i = .ref2 u (s1.fl.node u).refcnt := by rw [← h1]; first | exact upd_self .. | simp [upd]
  refine micro_go hB A1 (by rw [p1]; rfl) (fun s2 A2 g2 h2 => ?_)
  fl_simp at h2
  simp only [p1, Option.some.injEq, BEq.rfl, Bool.and_self, if_true] at h2
  refine H s2 A2 (same_trans g1 g2) (by rw [← h2]; first | exact upd_self .. | simp [upd]) ?_
  rw [← h2, ← h1]; simp [upd]

/-- A reference, from anywhere. -/
theorem refF_go (hB : 0 < B) (k : Alone B m i s) {u : Nat} (hf : refF u (s.fl.pc i) = true) (H : ∀ r, EndsIn B m i s (.ret r)) : Done B i s := by
  have P : ∀ (s' : St α) (v n : Nat), Alone B m i s' → Same s s' → s'.fl.pc i = .ref2 v n → Done B i s' := by
    intro s' v n A g e
    refine micro_go hB A (by rw [e]; rfl) (fun s1 A1 g1 h1 => ?_)
    fl_simp at h1
    simp only [e, Option.some.injEq] at h1
    split at h1
    · exact H .ok s1 A1 (same_trans g g1) (by rw [← h1]; first | exact upd_self .. | simp [upd])
    · exact H .failed s1 A1 (same_trans g g1) (by rw [← h1]; first | exact upd_self .. | simp [upd])
  cases hp : s.fl.pc i <;> rw [hp] at hf
  case ret r => exact H r s k (same_refl s) hp
  case ref1 v =>
    refine micro_go hB k (by rw [hp]; rfl) (fun s1 A1 g1 h1 => ?_)
    fl_simp at h1
    simp only [hp, Option.some.injEq] at h1
    by_cases h0 : (s.fl.node v).refcnt = 0
    · exact H .failed s1 A1 g1 (by rw [← h1]; simp [upd, h0])
    · exact P s1 v (s.fl.node v).refcnt A1 g1 (by rw [← h1]; simp [upd, h0])
  case ref2 v n => exact P s v n k (same_refl s) hp
  all_goals cases hf

/-! ## enqueue -/

def idlePc : Pc α → Bool
  | .idle _ => true
  | _ => false

theorem ni {p : Pc α} (hp : s.pc i = p) (h : idlePc p = false) : ¬ Idle s i := by
  rintro ⟨r, hr⟩; rw [hp] at hr; rw [hr] at h; cases h

theorem rf (k : Alone B m i s) {p : Pc α} (hp : s.pc i = p) (h : ∀ f, Fit p f = retF f) : retF (s.fl.pc i) = true := by
  have := k.prog.fit i
  rw [hp, h] at this; exact this

theorem loc_go (hB : 0 < B) (k : Alone B m i s) {p : Pc α} (hp : s.pc i = p) (hn : idlePc p = false) (hf : retF (s.fl.pc i) = true)
    (H : ∀ s' r, s.fl.pc i = .ret r → Alone B m i s' → localStep B s i true r = some s' → Done B i s') : Done B i s := by
  refine done_go hB k (ni hp hn) (fun s' h A => ?_)
  cases hr : s.fl.pc i <;> rw [hr] at hf
  case ret r => simp only [step, hr] at h; exact H s' r hr A h
  all_goals cases hf

theorem done_idle {s' : St α} {x : Ret α} (h : s'.pc i = .idle x) : Done B i s' := ⟨0, s', rfl, x, h⟩

macro "loc_simp" "at" h:ident "[" ts:Lean.Parser.Tactic.simpLemma,* "]" : tactic => `(tactic| simp only [localStep, enqStep, deqStep, rewStep, mpmcStep, addStep, Option.none_or, Option.or_none, Option.some_or, gotBlk, Option.some.injEq,
  St.ret, St.setPc, St.rcd, St.setBlk, St.setStat, St.call, Bool.true_and, if_true, if_false, and_true, and_false, true_and, reduceCtorEq, Bool.false_eq_true, $ts,*] at $h:ident)

/-- Back at the start of a round of enqueue. -/
def Again (B : Nat) (m : Mode) (i : Nat) (s : St α) : Prop :=
  ∀ s' e u, Alone B m i s' → s'.pc i = .e1 e u → s'.blk = s.blk → s'.qtail = s.qtail → Done B i s'

theorem eR_go (hB : 0 < B) (k : Alone B m i s) {e : α} {u : Bool} (hp : s.pc i = .eR e u) (H : Again B m i s) : Done B i s := by
  have hf := k.prog.fit i
  rw [hp] at hf
  refine relF_go hB k hf (fun s1 A1 g1 h1 => ?_)
  have p1 : s1.pc i = .eR e u := by rw [g1.pc]; exact hp
  refine loc_go hB A1 p1 rfl (by rw [h1]; rfl) (fun s2 r hr A2 h2 => ?_)
  loc_simp at h2 [p1]
  subst h2
  exact H _ e u A2 (upd_self ..) g1.blk g1.qt

theorem e14_go (hB : 0 < B) (k : Alone B m i s) {e : α} {u : Bool} {t : Nat} (hp : s.pc i = .e14 e u t) (H : Again B m i s) : Done B i s := by
  have P : ∀ s' : St α, Alone B m i s' → s'.pc i = .e14 e u t → s'.blk = s.blk → s'.qtail = s.qtail → retF (s'.fl.pc i) = true → Done B i s' := by
    intro s1 A1 p1 b1 q1 r1
    refine loc_go hB A1 p1 rfl r1 (fun s2 r hr A2 h2 => ?_)
    loc_simp at h2 [p1]
    subst h2
    exact eR_go hB A2 (upd_self ..) (fun s' e u A h1 h2 h3 => H s' e u A h1 (h2.trans b1) (h3.trans q1))
  have hf := k.prog.fit i
  rw [hp] at hf
  simp only [Fit, Bool.or_eq_true] at hf
  rcases hf with hf | hf
  · refine pushF_go hB k hf (fun s1 A1 g1 h1 => P s1 A1 (by rw [g1.pc]; exact hp) g1.blk g1.qt (by rw [h1]; rfl))
  · exact P s k hp rfl rfl hf

theorem e13_go (hB : 0 < B) (k : Alone B m i s) {e : α} {u : Bool} {t n : Nat} (hp : s.pc i = .e13 e u t n) (H : Again B m i s) : Done B i s := by
  refine loc_go hB k hp rfl (rf k hp fun _ => rfl) (fun s1 r hr A1 h1 => ?_)
  loc_simp at h1 [hp]
  subst h1
  exact e14_go hB A1 (upd_self ..) H

theorem eD_go (hB : 0 < B) (k : Alone B m i s) (hp : s.pc i = .eD) : Done B i s := by
  have hf := k.prog.fit i
  rw [hp] at hf
  refine relF_go hB k hf (fun s1 A1 g1 h1 => ?_)
  have p1 : s1.pc i = .eD := by rw [g1.pc]; exact hp
  refine loc_go hB A1 p1 rfl (by rw [h1]; rfl) (fun s2 r hr A2 h2 => ?_)
  loc_simp at h2 [p1]
  subst h2
  exact done_idle (upd_self ..)

theorem eF_go (hB : 0 < B) (k : Alone B m i s) (hp : s.pc i = .eF) : Done B i s := by
  have hf := k.prog.fit i
  rw [hp] at hf
  refine relF_go hB k hf (fun s1 A1 g1 h1 => ?_)
  have p1 : s1.pc i = .eF := by rw [g1.pc]; exact hp
  refine loc_go hB A1 p1 rfl (by rw [h1]; rfl) (fun s2 r hr A2 h2 => ?_)
  loc_simp at h2 [p1]
  subst h2
  exact done_idle (upd_self ..)

theorem e18_go (hB : 0 < B) (k : Alone B m i s) {t : Nat} (hp : s.pc i = .e18 t) : Done B i s := by
  refine loc_go hB k hp rfl (rf k hp fun _ => rfl) (fun s1 r hr A1 h1 => ?_)
  loc_simp at h1 [hp]
  subst h1
  exact eD_go hB A1 (upd_self ..)

theorem e17_go (hB : 0 < B) (k : Alone B m i s) {e : α} {u : Bool} {t n : Nat} (hp : s.pc i = .e17 e u t n) : Done B i s := by
  refine loc_go hB k hp rfl (rf k hp fun _ => rfl) (fun s1 r hr A1 h1 => ?_)
  loc_simp at h1 [hp]
  subst h1
  exact e18_go hB A1 (upd_self ..)

theorem e16_go (hB : 0 < B) (k : Alone B m i s) {e : α} {u : Bool} {t n : Nat} (hp : s.pc i = .e16 e u t n) : Done B i s := by
  refine loc_go hB k hp rfl (rf k hp fun _ => rfl) (fun s1 r hr A1 h1 => ?_)
  loc_simp at h1 [hp]
  subst h1
  exact e17_go hB A1 (upd_self ..)

theorem e15_go (hB : 0 < B) (k : Alone B m i s) {e : α} {u : Bool} {t n : Nat} (hp : s.pc i = .e15 e u t n) (H : (s.blk t).tail = n ∨ Again B m i s) : Done B i s := by
  refine loc_go hB k hp rfl (rf k hp fun _ => rfl) (fun s1 r hr A1 h1 => ?_)
  loc_simp at h1 [hp]
  split at h1
  · cases h1
    exact e16_go hB A1 (upd_self ..)
  · rename_i hx
    rcases H with H | H
    · simp [H] at hx
    · cases h1
      exact eR_go hB A1 (upd_self ..) H

/-- Nobody is between linking a block and making it the tail. -/
theorem lk_none (k : Alone B m i s) (h : (s.pc i).links = none) : s.lk = none := by
  cases hl : s.lk with
  | none => rfl
  | some x =>
    obtain ⟨j, n⟩ := x
    have h1 := (k.inv.qt2 j n hl).2.2
    by_cases hj : j = i
    · rw [hj, h] at h1; cases h1
    · obtain ⟨x, hx⟩ := k.others j hj
      rw [hx] at h1; cases h1

theorem tail_chain (k : Alone B m i s) (h : (s.pc i).links = none) : s.stat s.qtail = .chain :=
  (k.inv.mem _).1 (List.mem_of_getLast? (k.inv.qt1 (lk_none k h)))

/-- The start of a round of enqueue: the tail is looked at. -/
theorem e1_go (hB : 0 < B) (k : Alone B m i s) {e : α} {u : Bool} (hp : s.pc i = .e1 e u)
    (H : ∀ s', Alone B m i s' → s'.pc i = .e5 e u s'.qtail → s'.blk = s.blk → s'.qtail = s.qtail → (s'.blk s'.qtail).next = none → Done B i s') : Done B i s := by
  have hl : (s.pc i).links = none := by rw [hp]; rfl
  have hc := tail_chain k hl
  have hfr : (s.fl.node s.qtail).freed = false := by
    cases hx : (s.fl.node s.qtail).freed with
    | false => rfl
    | true =>
      have := k.prog.qf (lk_none k hl) hx
      cases hy : s.hid s.qtail with
      | none => exact absurd hy this
      | some j =>
        obtain ⟨e', u', t', h1⟩ := k.prog.hp _ _ hy
        by_cases hj : j = i
        · rw [hj, hp] at h1; rcases h1 with h1 | h1 <;> cases h1
        · obtain ⟨x, hx⟩ := k.others j hj
          rw [hx] at h1; rcases h1 with h1 | h1 <;> cases h1
  refine loc_go hB k hp rfl (rf k hp fun _ => rfl) (fun s1 r hr A1 h1 => ?_)
  loc_simp at h1 [hp]
  subst h1
  refine ref1_go hB A1 (u := s.qtail) (by simp [FreeList.call, FreeList.St.setPc]) (by simp only [fcall_node]; exact chain_ref k.inv hc) (fun s2 A2 g2 h2 f2 => ?_)
  have p2 : s2.pc i = .e2 e u s.qtail := by rw [g2.pc]; exact upd_self ..
  have q2 : s2.qtail = s.qtail := g2.qt
  have b2 : s2.blk = s.blk := g2.blk
  simp only [fcall_node, hfr] at f2
  have n2 : (s2.blk s2.qtail).next = none := by
    have hl2 : (s2.pc i).links = none := by rw [p2]; rfl
    exact (linked_last A2.inv.nd A2.inv.link ((A2.inv.mem _).2 (tail_chain A2 hl2))).2 (A2.inv.qt1 (lk_none A2 hl2))
  refine loc_go hB A2 p2 rfl (by rw [h2]; rfl) (fun s3 r hr A3 h3 => ?_)
  rw [h2] at hr
  cases hr
  loc_simp at h3 [p2, f2]
  subst h3
  exact H _ A3 (by simp only [q2]; exact upd_self ..) b2 q2 n2

/-- An enqueue with room in the tail block. -/
theorem e1_room (hB : 0 < B) (k : Alone B m i s) {e : α} {u : Bool} (hp : s.pc i = .e1 e u) (hr : (s.blk s.qtail).tail < B) : Done B i s := by
  refine e1_go hB k hp (fun s1 A1 p1 b1 q1 n1 => ?_)
  refine loc_go hB A1 p1 rfl (rf A1 p1 fun _ => rfl) (fun s2 r hr' A2 h2 => ?_)
  have : ¬ (s1.blk s1.qtail).tail ≥ B := by rw [b1, q1]; omega
  loc_simp at h2 [p1, this]
  subst h2
  exact e15_go hB A2 (upd_self ..) (.inl rfl)

theorem e12_go (hB : 0 < B) (k : Alone B m i s) {e : α} {u : Bool} {t n : Nat} (hp : s.pc i = .e12 e u t n) : Done B i s := by
  have h0 : (s.blk n).tail = 0 := by
    have h1 := k.inv.lk i t n (by rw [hp]; rfl)
    exact (k.inv.hid n i (k.inv.qt2 i n h1).2.1).2.1
  refine loc_go hB k hp rfl (rf k hp fun _ => rfl) (fun s1 r hr A1 h1 => ?_)
  loc_simp at h1 [hp]
  subst h1
  refine e13_go hB A1 (upd_self ..) (fun s' e' u' A p b q => e1_room hB A p ?_)
  rw [b, q]
  show (s.blk n).tail < B
  omega

theorem e11_go (hB : 0 < B) (k : Alone B m i s) {e : α} {u : Bool} {t n : Nat} (hp : s.pc i = .e11 e u t n) (H : (s.blk t).next = none ∨ Again B m i s) : Done B i s := by
  refine loc_go hB k hp rfl (rf k hp fun _ => rfl) (fun s1 r hr A1 h1 => ?_)
  loc_simp at h1 [hp]
  split at h1
  · cases h1
    exact e12_go hB A1 (upd_self ..)
  · rename_i hx
    rcases H with H | H
    · simp [H] at hx
    · cases h1
      exact e14_go hB A1 (upd_self ..) H

/-- Back at the start of a round of enqueue, with anything. -/
def Any1 (B : Nat) (m : Mode) (i : Nat) (α : Type) [DecidableEq α] : Prop := ∀ (s' : St α) e u, Alone B m i s' → s'.pc i = .e1 e u → Done B i s'

theorem any_again (H : Any1 B m i α) (s : St α) : Again B m i s := fun s' e u A p _ _ => H s' e u A p

theorem good_priv {t n : Nat} (h : Good B s t) (hn : s.stat n = .priv i) : t ≠ n := by
  rintro rfl
  rcases h with h | h <;> rw [h.1] at hn <;> cases hn

theorem e10_go (hB : 0 < B) (k : Alone B m i s) {e : α} {u : Bool} {t n : Nat} (hp : s.pc i = .e10 e u t n) (H : (s.blk t).next = none ∨ Any1 B m i α) : Done B i s := by
  have hl := k.inv.loc i
  rw [hp] at hl
  have hne : t ≠ n := good_priv hl.1 hl.2.2.1
  refine loc_go hB k hp rfl (rf k hp fun _ => rfl) (fun s1 r hr A1 h1 => ?_)
  loc_simp at h1 [hp]
  subst h1
  exact e11_go hB A1 (upd_self ..) (H.imp (fun h => by simpa only [upd_other _ _ hne] using h) (fun h => any_again h _))

theorem e9_go (hB : 0 < B) (k : Alone B m i s) {e : α} {u : Bool} {t n : Nat} (hp : s.pc i = .e9 e u t n) (H : (s.blk t).next = none ∨ Any1 B m i α) : Done B i s := by
  have hl := k.inv.loc i
  rw [hp] at hl
  have hne : t ≠ n := good_priv hl.1 hl.2.2.1
  refine loc_go hB k hp rfl (rf k hp fun _ => rfl) (fun s1 r hr A1 h1 => ?_)
  loc_simp at h1 [hp]
  subst h1
  exact e10_go hB A1 (upd_self ..) (H.imp_left (fun h => by simpa only [upd_other _ _ hne] using h))

theorem e8_go (hB : 0 < B) (k : Alone B m i s) {e : α} {u : Bool} {t n : Nat} (hp : s.pc i = .e8 e u t n) (H : (s.blk t).next = none ∨ Any1 B m i α) : Done B i s := by
  have hl := k.inv.loc i
  rw [hp] at hl
  have hne : t ≠ n := good_priv hl.1 hl.2.2.1
  refine loc_go hB k hp rfl (rf k hp fun _ => rfl) (fun s1 r hr A1 h1 => ?_)
  loc_simp at h1 [hp]
  subst h1
  exact e9_go hB A1 (upd_self ..) (H.imp_left (fun h => by simpa only [upd_other _ _ hne] using h))

theorem e7_go (hB : 0 < B) (k : Alone B m i s) {e : α} {u : Bool} {t : Nat} (hp : s.pc i = .e7 e u t) (H : (s.blk t).next = none ∨ Any1 B m i α) : Done B i s := by
  have hf := k.prog.fit i
  rw [hp] at hf
  refine popG_go hB k hf ⟨fun s1 A1 g1 h1 => ?_, fun n s1 A1 g1 h1 => ?_⟩
  · have p1 : s1.pc i = .e7 e u t := by rw [g1.pc]; exact hp
    refine loc_go hB A1 p1 rfl (by rw [h1]; rfl) (fun s2 r hr A2 h2 => ?_)
    rw [h1] at hr
    cases hr
    loc_simp at h2 [p1]
    split at h2
    · cases h2
      exact eF_go hB A2 (upd_self ..)
    · cases h2
      exact e8_go hB A2 (upd_self ..) (by simpa only [g1.blk] using H)
  · have p1 : s1.pc i = .e7 e u t := by rw [g1.pc]; exact hp
    refine loc_go hB A1 p1 rfl (by rw [h1]; rfl) (fun s2 r hr A2 h2 => ?_)
    rw [h1] at hr
    cases hr
    loc_simp at h2 [p1]
    simp only [false_and, if_false, Option.some.injEq] at h2
    cases h2
    exact e8_go hB A2 (upd_self ..) (by simpa only [g1.blk] using H)

theorem e6_go (hB : 0 < B) (k : Alone B m i s) {e : α} {u : Bool} {t : Nat} (hp : s.pc i = .e6 e u t) (H : (s.blk t).next = none ∨ Any1 B m i α) : Done B i s := by
  refine loc_go hB k hp rfl (rf k hp fun _ => rfl) (fun s1 r hr A1 h1 => ?_)
  loc_simp at h1 [hp]
  split at h1
  · cases h1
    exact e7_go hB A1 (upd_self ..) H
  · rename_i hx
    rcases H with H | H
    · exact absurd H hx
    · cases h1
      exact eR_go hB A1 (upd_self ..) (any_again H _)

/-- An enqueue that runs alone returns. -/
theorem e1_all (hB : 0 < B) : Any1 B m i α := by
  intro s e u k hp
  refine e1_go hB k hp (fun s1 A1 p1 b1 q1 n1 => ?_)
  refine loc_go hB A1 p1 rfl (rf A1 p1 fun _ => rfl) (fun s2 r hr' A2 h2 => ?_)
  loc_simp at h2 [p1]
  by_cases hx : (s1.blk s1.qtail).tail ≥ B
  · rw [if_pos hx] at h2
    subst h2
    exact e6_go hB A2 (upd_self ..) (.inl n1)
  · rw [if_neg hx] at h2
    subst h2
    exact e15_go hB A2 (upd_self ..) (.inl rfl)

theorem e5_go (hB : 0 < B) (k : Alone B m i s) {e : α} {u : Bool} {t : Nat} (hp : s.pc i = .e5 e u t) : Done B i s := by
  refine loc_go hB k hp rfl (rf k hp fun _ => rfl) (fun s2 r hr' A2 h2 => ?_)
  loc_simp at h2 [hp]
  by_cases hx : (s.blk t).tail ≥ B
  · rw [if_pos hx] at h2
    subst h2
    exact e6_go hB A2 (upd_self ..) (.inr (e1_all hB))
  · rw [if_neg hx] at h2
    subst h2
    exact e15_go hB A2 (upd_self ..) (.inl rfl)

theorem e2_go (hB : 0 < B) (k : Alone B m i s) {e : α} {u : Bool} {t : Nat} (hp : s.pc i = .e2 e u t) : Done B i s := by
  have hf := k.prog.fit i
  rw [hp] at hf
  refine refF_go hB k hf (fun r s1 A1 g1 h1 => ?_)
  have p1 : s1.pc i = .e2 e u t := by rw [g1.pc]; exact hp
  refine loc_go hB A1 p1 rfl (by rw [h1]; rfl) (fun s2 r' hr A2 h2 => ?_)
  loc_simp at h2 [p1]
  split at h2
  · split at h2
    · cases h2
      exact eR_go hB A2 (upd_self ..) (any_again (e1_all hB) _)
    · cases h2
      exact e5_go hB A2 (upd_self ..)
  · cases h2
    exact e1_all hB _ _ _ A2 (upd_self ..)

/-! ## try_dequeue of one consumer -/

/-- The slot a thread is going to read has been written. -/
theorem slot_avail (k : Alone B m i s) {b c : Nat} (h : (s.pc i).reads = some (b, c)) (hw : (s.pc i).writes = none) : (s.blk b).avail c = true := by
  have h1 := (k.inv.rd b c i).2 h
  rcases k.inv.sl b c (.inr (by rw [h1]; simp)) with h2 | h2
  · exact h2.2.1
  · cases h3 : s.wr b c with
    | none => exact absurd h3 h2.1
    | some j =>
      have h4 := (k.inv.wr b c j).1 h3
      by_cases hj : j = i
      · rw [hj, hw] at h4; cases h4
      · obtain ⟨x, hx⟩ := k.others j hj
        rw [hx] at h4; cases h4

theorem d10_go (hB : 0 < B) (k : Alone B m i s) {h hh : Nat} {v : Option α} (hp : s.pc i = .d10 h hh v) : Done B i s := by
  refine loc_go hB k hp rfl (rf k hp fun _ => rfl) (fun s1 r hr A1 h1 => ?_)
  loc_simp at h1 [hp]
  subst h1
  exact done_idle (upd_self ..)

theorem d9_go (hB : 0 < B) (k : Alone B m i s) {h hh : Nat} (hp : s.pc i = .d9 h hh) : Done B i s := by
  refine loc_go hB k hp rfl (rf k hp fun _ => rfl) (fun s1 r hr A1 h1 => ?_)
  loc_simp at h1 [hp]
  subst h1
  exact d10_go hB A1 (upd_self ..)

theorem d8_go (hB : 0 < B) (k : Alone B m i s) {h hh : Nat} (hp : s.pc i = .d8 h hh) : Done B i s := by
  have ha := slot_avail k (b := h) (c := hh) (by rw [hp]; rfl) (by rw [hp]; rfl)
  refine loc_go hB k hp rfl (rf k hp fun _ => rfl) (fun s1 r hr A1 h1 => ?_)
  loc_simp at h1 [hp, ha]
  subst h1
  exact d9_go hB A1 (upd_self ..)

theorem d7_go (hB : 0 < B) (k : Alone B m i s) {h hh : Nat} (hp : s.pc i = .d7 h hh) : Done B i s := by
  refine loc_go hB k hp rfl (rf k hp fun _ => rfl) (fun s1 r hr A1 h1 => ?_)
  loc_simp at h1 [hp]
  subst h1
  exact d8_go hB A1 (upd_self ..)

/-- A dequeue with fewer than n blocks. -/
def Deq (B : Nat) (m : Mode) (i : Nat) (α : Type) [DecidableEq α] (n : Nat) : Prop := ∀ s' : St α, Alone B m i s' → s'.pc i = .d1 → s'.chain.length < n → Done B i s'

theorem d6_go (hB : 0 < B) (k : Alone B m i s) (hp : s.pc i = .d6) {n : Nat} (H : Deq B m i α n) (hn : s.chain.length < n) : Done B i s := by
  have hf := k.prog.fit i
  rw [hp] at hf
  refine pushF_go hB k hf (fun s1 A1 g1 h1 => ?_)
  have p1 : s1.pc i = .d6 := by rw [g1.pc]; exact hp
  refine loc_go hB A1 p1 rfl (by rw [h1]; rfl) (fun s2 r hr A2 h2 => ?_)
  loc_simp at h2 [p1]
  subst h2
  exact H _ A2 (upd_self ..) (by simp only [g1.ch]; exact hn)

theorem chain_pos (k : Inv B m s) : 0 < s.chain.length := by
  have := k.hd
  cases h : s.chain with
  | nil => rw [h] at this; cases this
  | cons a l => simp

theorem d5_go (hB : 0 < B) (k : Alone B m i s) {h n : Nat} (hp : s.pc i = .d5 h n) (H : Deq B m i α s.chain.length) : Done B i s := by
  have hc := chain_pos k.inv
  refine loc_go hB k hp rfl (rf k hp fun _ => rfl) (fun s1 r hr A1 h1 => ?_)
  loc_simp at h1 [hp]
  subst h1
  exact d6_go hB A1 (upd_self ..) H (by simp only [List.length_tail]; omega)

theorem d4_go (hB : 0 < B) (k : Alone B m i s) {h : Nat} (hp : s.pc i = .d4 h) (H : Deq B m i α s.chain.length) : Done B i s := by
  refine loc_go hB k hp rfl (rf k hp fun _ => rfl) (fun s1 r hr A1 h1 => ?_)
  loc_simp at h1 [hp]
  split at h1
  · cases h1
    exact done_idle (upd_self ..)
  · cases h1
    exact d5_go hB A1 (upd_self ..) H

theorem d3_go (hB : 0 < B) (k : Alone B m i s) {h hh : Nat} (hp : s.pc i = .d3 h hh) (H : Deq B m i α s.chain.length) : Done B i s := by
  refine loc_go hB k hp rfl (rf k hp fun _ => rfl) (fun s1 r hr A1 h1 => ?_)
  loc_simp at h1 [hp]
  split at h1
  · split at h1
    · cases h1
      exact done_idle (upd_self ..)
    · cases h1
      exact d4_go hB A1 (upd_self ..) H
  · cases h1
    exact d7_go hB A1 (upd_self ..)

theorem d2_go (hB : 0 < B) (k : Alone B m i s) {h : Nat} (hp : s.pc i = .d2 h) (H : Deq B m i α s.chain.length) : Done B i s := by
  refine loc_go hB k hp rfl (rf k hp fun _ => rfl) (fun s1 r hr A1 h1 => ?_)
  loc_simp at h1 [hp]
  subst h1
  exact d3_go hB A1 (upd_self ..) H

theorem d1_all (hB : 0 < B) : ∀ n, Deq B m i α n
  | 0 => fun s k hp hn => absurd hn (Nat.not_lt_zero _)
  | n + 1 => fun s k hp hn => by
    refine loc_go hB k hp rfl (rf k hp fun _ => rfl) (fun s1 r hr A1 h1 => ?_)
    loc_simp at h1 [hp]
    subst h1
    exact d2_go hB A1 (upd_self ..) (fun s' A p h => d1_all hB n s' A p (Nat.lt_of_lt_of_le h (Nat.le_of_lt_succ hn)))

/-! ## rewind -/

theorem w12_go (hB : 0 < B) (k : Alone B m i s) {e : α} {h hh : Nat} (hp : s.pc i = .w12 e h hh) : Done B i s := by
  refine loc_go hB k hp rfl (rf k hp fun _ => rfl) (fun s1 r hr A1 h1 => ?_)
  loc_simp at h1 [hp]
  subst h1
  exact done_idle (upd_self ..)

theorem w11_go (hB : 0 < B) (k : Alone B m i s) {e : α} {h hh : Nat} (hp : s.pc i = .w11 e h hh) : Done B i s := by
  refine loc_go hB k hp rfl (rf k hp fun _ => rfl) (fun s1 r hr A1 h1 => ?_)
  loc_simp at h1 [hp]
  subst h1
  exact w12_go hB A1 (upd_self ..)

theorem w10_go (hB : 0 < B) (k : Alone B m i s) {e : α} {h hh : Nat} (hp : s.pc i = .w10 e h hh) : Done B i s := by
  refine loc_go hB k hp rfl (rf k hp fun _ => rfl) (fun s1 r hr A1 h1 => ?_)
  loc_simp at h1 [hp]
  subst h1
  exact w11_go hB A1 (upd_self ..)

theorem w9_go (hB : 0 < B) (k : Alone B m i s) {e : α} {h : Nat} (hp : s.pc i = .w9 e h) : Done B i s := by
  refine loc_go hB k hp rfl (rf k hp fun _ => rfl) (fun s1 r hr A1 h1 => ?_)
  loc_simp at h1 [hp]
  subst h1
  exact w10_go hB A1 (upd_self ..)

theorem w8_go (hB : 0 < B) (k : Alone B m i s) {e : α} (hp : s.pc i = .w8 e) : Done B i s := by
  refine loc_go hB k hp rfl (rf k hp fun _ => rfl) (fun s1 r hr A1 h1 => ?_)
  loc_simp at h1 [hp]
  subst h1
  exact w9_go hB A1 (upd_self ..)

theorem w7_go (hB : 0 < B) (k : Alone B m i s) {e : α} {n : Nat} (hp : s.pc i = .w7 e n) : Done B i s := by
  refine loc_go hB k hp rfl (rf k hp fun _ => rfl) (fun s1 r hr A1 h1 => ?_)
  loc_simp at h1 [hp]
  subst h1
  exact w8_go hB A1 (upd_self ..)

theorem w6_go (hB : 0 < B) (k : Alone B m i s) {e : α} {h n : Nat} (hp : s.pc i = .w6 e h n) : Done B i s := by
  refine loc_go hB k hp rfl (rf k hp fun _ => rfl) (fun s1 r hr A1 h1 => ?_)
  loc_simp at h1 [hp]
  subst h1
  exact w7_go hB A1 (upd_self ..)

theorem w5_go (hB : 0 < B) (k : Alone B m i s) {e : α} {h n : Nat} (hp : s.pc i = .w5 e h n) : Done B i s := by
  refine loc_go hB k hp rfl (rf k hp fun _ => rfl) (fun s1 r hr A1 h1 => ?_)
  loc_simp at h1 [hp]
  subst h1
  exact w6_go hB A1 (upd_self ..)

theorem w4_go (hB : 0 < B) (k : Alone B m i s) {e : α} {h n : Nat} (hp : s.pc i = .w4 e h n) : Done B i s := by
  refine loc_go hB k hp rfl (rf k hp fun _ => rfl) (fun s1 r hr A1 h1 => ?_)
  loc_simp at h1 [hp]
  subst h1
  exact w5_go hB A1 (upd_self ..)

theorem w3_go (hB : 0 < B) (k : Alone B m i s) {e : α} {h : Nat} (hp : s.pc i = .w3 e h) : Done B i s := by
  have hf := k.prog.fit i
  rw [hp] at hf
  refine popG_go hB k hf ⟨fun s1 A1 g1 h1 => ?_, fun n s1 A1 g1 h1 => ?_⟩
  all_goals
    have p1 : s1.pc i = .w3 e h := by rw [g1.pc]; exact hp
    refine loc_go hB A1 p1 rfl (by rw [h1]; rfl) (fun s2 r hr A2 h2 => ?_)
    rw [h1] at hr
    cases hr
    loc_simp at h2 [p1]
    cases h2
    exact w4_go hB A2 (upd_self ..)

theorem w2_go (hB : 0 < B) (k : Alone B m i s) {e : α} {h : Nat} (hp : s.pc i = .w2 e h) : Done B i s := by
  refine loc_go hB k hp rfl (rf k hp fun _ => rfl) (fun s1 r hr A1 h1 => ?_)
  loc_simp at h1 [hp]
  split at h1
  · cases h1
    exact w3_go hB A1 (upd_self ..)
  · cases h1
    exact w8_go hB A1 (upd_self ..)

theorem w1_go (hB : 0 < B) (k : Alone B m i s) {e : α} (hp : s.pc i = .w1 e) : Done B i s := by
  refine loc_go hB k hp rfl (rf k hp fun _ => rfl) (fun s1 r hr A1 h1 => ?_)
  loc_simp at h1 [hp]
  subst h1
  exact w2_go hB A1 (upd_self ..)

/-! ## try_dequeue of many consumers -/

/-- A dequeue with fewer than n blocks. -/
def DeqM (B : Nat) (m : Mode) (i : Nat) (α : Type) [DecidableEq α] (n : Nat) : Prop := ∀ s' : St α, Alone B m i s' → s'.pc i = .m1 → s'.chain.length < n → Done B i s'

theorem mF_go (hB : 0 < B) (k : Alone B m i s) (hp : s.pc i = .mF) : Done B i s := by
  have hf := k.prog.fit i
  rw [hp] at hf
  refine relF_go hB k hf (fun s1 A1 g1 h1 => ?_)
  have p1 : s1.pc i = .mF := by rw [g1.pc]; exact hp
  refine loc_go hB A1 p1 rfl (by rw [h1]; rfl) (fun s2 r hr A2 h2 => ?_)
  loc_simp at h2 [p1]
  subst h2
  exact done_idle (upd_self ..)

theorem mD_go (hB : 0 < B) (k : Alone B m i s) {v : Option α} (hp : s.pc i = .mD v) : Done B i s := by
  have hf := k.prog.fit i
  rw [hp] at hf
  refine relF_go hB k hf (fun s1 A1 g1 h1 => ?_)
  have p1 : s1.pc i = .mD v := by rw [g1.pc]; exact hp
  refine loc_go hB A1 p1 rfl (by rw [h1]; rfl) (fun s2 r hr A2 h2 => ?_)
  loc_simp at h2 [p1]
  subst h2
  exact done_idle (upd_self ..)

theorem mR_go (hB : 0 < B) (k : Alone B m i s) (hp : s.pc i = .mR) {n : Nat} (H : DeqM B m i α n) (hn : s.chain.length < n) : Done B i s := by
  have hf := k.prog.fit i
  rw [hp] at hf
  refine relF_go hB k hf (fun s1 A1 g1 h1 => ?_)
  have p1 : s1.pc i = .mR := by rw [g1.pc]; exact hp
  refine loc_go hB A1 p1 rfl (by rw [h1]; rfl) (fun s2 r hr A2 h2 => ?_)
  loc_simp at h2 [p1]
  subst h2
  exact H _ A2 (upd_self ..) (by simp only [g1.ch]; exact hn)

theorem m10_go (hB : 0 < B) (k : Alone B m i s) {h : Nat} {v : Option α} (hp : s.pc i = .m10 h v) : Done B i s := by
  refine loc_go hB k hp rfl (rf k hp fun _ => rfl) (fun s1 r hr A1 h1 => ?_)
  loc_simp at h1 [hp]
  subst h1
  exact mD_go hB A1 (upd_self ..)

theorem m9_go (hB : 0 < B) (k : Alone B m i s) {h hh : Nat} {v : Option α} (hp : s.pc i = .m9 h hh v) : Done B i s := by
  refine loc_go hB k hp rfl (rf k hp fun _ => rfl) (fun s1 r hr A1 h1 => ?_)
  loc_simp at h1 [hp]
  subst h1
  exact m10_go hB A1 (upd_self ..)

theorem m8_go (hB : 0 < B) (k : Alone B m i s) {h hh : Nat} (hp : s.pc i = .m8 h hh) : Done B i s := by
  refine loc_go hB k hp rfl (rf k hp fun _ => rfl) (fun s1 r hr A1 h1 => ?_)
  loc_simp at h1 [hp]
  subst h1
  exact m9_go hB A1 (upd_self ..)

theorem m7_go (hB : 0 < B) (k : Alone B m i s) {h hh : Nat} (hp : s.pc i = .m7 h hh) : Done B i s := by
  have ha := slot_avail k (b := h) (c := hh) (by rw [hp]; rfl) (by rw [hp]; rfl)
  refine loc_go hB k hp rfl (rf k hp fun _ => rfl) (fun s1 r hr A1 h1 => ?_)
  loc_simp at h1 [hp, ha]
  subst h1
  exact m8_go hB A1 (upd_self ..)

theorem m6_go (hB : 0 < B) (k : Alone B m i s) {h hh : Nat} (hp : s.pc i = .m6 h hh) (H : (s.blk h).head = hh ∨ ∀ n, DeqM B m i α n) : Done B i s := by
  refine loc_go hB k hp rfl (rf k hp fun _ => rfl) (fun s1 r hr A1 h1 => ?_)
  loc_simp at h1 [hp]
  split at h1
  · cases h1
    exact m7_go hB A1 (upd_self ..)
  · rename_i hx
    rcases H with H | H
    · simp [H] at hx
    · cases h1
      exact mR_go hB A1 (upd_self ..) (H _) (Nat.lt_succ_self _)

theorem m5p_go (hB : 0 < B) (k : Alone B m i s) {h : Nat} (hp : s.pc i = .m5p h) {n : Nat} (H : DeqM B m i α n) (hn : s.chain.length < n) : Done B i s := by
  have hf := k.prog.fit i
  rw [hp] at hf
  refine pushF_go hB k hf (fun s1 A1 g1 h1 => ?_)
  have p1 : s1.pc i = .m5p h := by rw [g1.pc]; exact hp
  refine loc_go hB A1 p1 rfl (by rw [h1]; rfl) (fun s2 r hr A2 h2 => ?_)
  loc_simp at h2 [p1]
  subst h2
  exact mR_go hB A2 (upd_self ..) H (by simp only [g1.ch]; exact hn)

theorem m5_go (hB : 0 < B) (k : Alone B m i s) {h n : Nat} (hp : s.pc i = .m5 h n) (H : (s.qhead = h ∧ DeqM B m i α s.chain.length) ∨ ∀ n, DeqM B m i α n) : Done B i s := by
  have hc := chain_pos k.inv
  refine loc_go hB k hp rfl (rf k hp fun _ => rfl) (fun s1 r hr A1 h1 => ?_)
  loc_simp at h1 [hp]
  split at h1
  · cases h1
    rcases H with H | H
    · exact m5p_go hB A1 (upd_self ..) H.2 (by simp only [List.length_tail]; omega)
    · exact m5p_go hB A1 (upd_self ..) (H _) (Nat.lt_succ_self _)
  · rename_i hx
    rcases H with H | H
    · simp [H.1] at hx
    · cases h1
      exact mR_go hB A1 (upd_self ..) (H _) (Nat.lt_succ_self _)

theorem m4_go (hB : 0 < B) (k : Alone B m i s) {h : Nat} (hp : s.pc i = .m4 h) (H : (s.qhead = h ∧ DeqM B m i α s.chain.length) ∨ ∀ n, DeqM B m i α n) : Done B i s := by
  refine loc_go hB k hp rfl (rf k hp fun _ => rfl) (fun s1 r hr A1 h1 => ?_)
  loc_simp at h1 [hp]
  split at h1
  · cases h1
    exact mF_go hB A1 (upd_self ..)
  · cases h1
    exact m5_go hB A1 (upd_self ..) H

theorem m3_go (hB : 0 < B) (k : Alone B m i s) {h hh : Nat} (hp : s.pc i = .m3 h hh) (H : (s.qhead = h ∧ (s.blk h).head = hh ∧ DeqM B m i α s.chain.length) ∨ ∀ n, DeqM B m i α n) :
    Done B i s := by
  refine loc_go hB k hp rfl (rf k hp fun _ => rfl) (fun s1 r hr A1 h1 => ?_)
  loc_simp at h1 [hp]
  split at h1
  · split at h1
    · cases h1
      exact mF_go hB A1 (upd_self ..)
    · cases h1
      exact m4_go hB A1 (upd_self ..) (H.imp_left fun x => ⟨x.1, x.2.2⟩)
  · cases h1
    exact m6_go hB A1 (upd_self ..) (H.imp_left fun x => x.2.1)

theorem m1_all (hB : 0 < B) : ∀ n, DeqM B m i α n
  | 0 => fun s k hp hn => absurd hn (Nat.not_lt_zero _)
  | n + 1 => fun s k hp hn => by
    have hc := head_chain k.inv
    refine loc_go hB k hp rfl (rf k hp fun _ => rfl) (fun s1 r hr A1 h1 => ?_)
    loc_simp at h1 [hp]
    subst h1
    refine ref1_go hB A1 (u := s.qhead) (by simp [FreeList.call, FreeList.St.setPc]) (by simp only [fcall_node]; exact chain_ref k.inv hc) (fun s2 A2 g2 h2 f2 => ?_)
    have p2 : s2.pc i = .m2 s.qhead := by rw [g2.pc]; exact upd_self ..
    have q2 : s2.qhead = s.qhead := g2.qh
    have c2 : s2.chain = s.chain := g2.ch
    refine loc_go hB A2 p2 rfl (by rw [h2]; rfl) (fun s3 r hr A3 h3 => ?_)
    rw [h2] at hr
    cases hr
    loc_simp at h3 [p2]
    subst h3
    exact m3_go hB A3 (upd_self ..) (.inl ⟨q2, rfl, fun s' A p h => m1_all hB n s' A p (by rw [show s2.chain.length = s.chain.length by rw [c2]] at h; omega)⟩)

theorem m2_go (hB : 0 < B) (k : Alone B m i s) {h : Nat} (hp : s.pc i = .m2 h) : Done B i s := by
  have hf := k.prog.fit i
  rw [hp] at hf
  refine refF_go hB k hf (fun r s1 A1 g1 h1 => ?_)
  have p1 : s1.pc i = .m2 h := by rw [g1.pc]; exact hp
  refine loc_go hB A1 p1 rfl (by rw [h1]; rfl) (fun s2 r' hr A2 h2 => ?_)
  loc_simp at h2 [p1]
  split at h2
  · cases h2
    exact m3_go hB A2 (upd_self ..) (.inr (m1_all hB))
  · cases h2
    exact m1_all hB _ _ A2 (upd_self ..) (Nat.lt_succ_self _)

/-! ## set_capacity -/

theorem a2_go (hB : 0 < B) (k : Alone B m i s) (hp : s.pc i = .a2) : Done B i s := by
  have hf := k.prog.fit i
  rw [hp] at hf
  refine pushF_go hB k hf (fun s1 A1 g1 h1 => ?_)
  have p1 : s1.pc i = .a2 := by rw [g1.pc]; exact hp
  refine loc_go hB A1 p1 rfl (by rw [h1]; rfl) (fun s2 r hr A2 h2 => ?_)
  loc_simp at h2 [p1]
  subst h2
  exact done_idle (upd_self ..)

theorem a1_go (hB : 0 < B) (k : Alone B m i s) {n : Nat} (hp : s.pc i = .a1 n) : Done B i s := by
  refine loc_go hB k hp rfl (rf k hp fun _ => rfl) (fun s1 r hr A1 h1 => ?_)
  loc_simp at h1 [hp]
  subst h1
  exact a2_go hB A1 (upd_self ..)

/-- Whatever a thread is in, alone it returns. -/
theorem alone_done (hB : 0 < B) (k : Alone B m i s) : Done B i s := by
  have E := any_again (e1_all (m := m) (i := i) (α := α) hB) s
  have D := d1_all (m := m) (i := i) (α := α) hB
  have M := m1_all (m := m) (i := i) (α := α) hB
  cases hp : s.pc i
  case idle x => exact done_idle hp
  case e1 => exact e1_all hB _ _ _ k hp
  case e2 => exact e2_go hB k hp
  case e5 => exact e5_go hB k hp
  case e6 => exact e6_go hB k hp (.inr (e1_all hB))
  case e7 => exact e7_go hB k hp (.inr (e1_all hB))
  case e8 => exact e8_go hB k hp (.inr (e1_all hB))
  case e9 => exact e9_go hB k hp (.inr (e1_all hB))
  case e10 => exact e10_go hB k hp (.inr (e1_all hB))
  case e11 => exact e11_go hB k hp (.inr E)
  case e12 => exact e12_go hB k hp
  case e13 => exact e13_go hB k hp E
  case e14 => exact e14_go hB k hp E
  case eR => exact eR_go hB k hp E
  case eF => exact eF_go hB k hp
  case e15 => exact e15_go hB k hp (.inr E)
  case e16 => exact e16_go hB k hp
  case e17 => exact e17_go hB k hp
  case e18 => exact e18_go hB k hp
  case eD => exact eD_go hB k hp
  case d1 => exact D _ s k hp (Nat.lt_succ_self _)
  case d2 => exact d2_go hB k hp (D _)
  case d3 => exact d3_go hB k hp (D _)
  case d4 => exact d4_go hB k hp (D _)
  case d5 => exact d5_go hB k hp (D _)
  case d6 => exact d6_go hB k hp (D _) (Nat.lt_succ_self _)
  case d7 => exact d7_go hB k hp
  case d8 => exact d8_go hB k hp
  case d9 => exact d9_go hB k hp
  case d10 => exact d10_go hB k hp
  case w1 => exact w1_go hB k hp
  case w2 => exact w2_go hB k hp
  case w3 => exact w3_go hB k hp
  case w4 => exact w4_go hB k hp
  case w5 => exact w5_go hB k hp
  case w6 => exact w6_go hB k hp
  case w7 => exact w7_go hB k hp
  case w8 => exact w8_go hB k hp
  case w9 => exact w9_go hB k hp
  case w10 => exact w10_go hB k hp
  case w11 => exact w11_go hB k hp
  case w12 => exact w12_go hB k hp
  case m1 => exact M _ s k hp (Nat.lt_succ_self _)
  case m2 => exact m2_go hB k hp
  case m3 => exact m3_go hB k hp (.inr M)
  case m4 => exact m4_go hB k hp (.inr M)
  case m5 => exact m5_go hB k hp (.inr M)
  case m5p => exact m5p_go hB k hp (M _) (Nat.lt_succ_self _)
  case m6 => exact m6_go hB k hp (.inr M)
  case m7 => exact m7_go hB k hp
  case m8 => exact m8_go hB k hp
  case m9 => exact m9_go hB k hp
  case m10 => exact m10_go hB k hp
  case mR => exact mR_go hB k hp (M _) (Nat.lt_succ_self _)
  case mF => exact mF_go hB k hp
  case mD => exact mD_go hB k hp
  case a1 => exact a1_go hB k hp
  case a2 => exact a2_go hB k hp

end Queue
end Salticidae
