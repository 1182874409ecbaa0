import Verif.Lemmas.Arc
/-
C44, C45: handles to one object shared by any number of threads.  A run is any interleaving of
the atomic steps of the handles' operations (Model/Arc).  Sequential consistency is assumed, which
is what the code asks for (no explicit memory order).
-/
namespace Salticidae
open Arc

/-- C44 as stated: no use after free, the object is destroyed at most once and never while an ArcObj
handle exists, and when nothing is in progress and no handle is left, the object has been destroyed
once and the control block freed once. -/
def C44_statement : Prop :=
  ∀ (as : List Act) (s : St), Act.upgrade ∉ as → run 256 init as = some s →
    s.uaf = false ∧ s.destroyed ≤ 1 ∧ (0 < s.strong → s.destroyed = 0) ∧ s.freed ≤ 1 ∧
    (quiet s = true → s.strong = 0 → s.weakH = 0 → s.destroyed = 1 ∧ s.freed = 1)

/-- Two ArcObj handles dropped at the same time: the control block is never freed. -/
theorem C44_violated : ¬ C44_statement := by
  intro h
  have := (h [.copy, .drop, .drop, .next 0, .next 1, .next 1, .next 1, .next 1, .next 0] _ (by decide) rfl).2.2.2.2
    (by decide) (by decide) (by decide)
  exact absurd this (by decide)

/-- A weak handle dropped while another thread makes a weak handle and drops the last strong one: the
control block is freed although a weak handle exists, whose destructor then uses it. -/
theorem C44_violated_weak :
    ∃ (as : List Act) (s : St), Act.upgrade ∉ as ∧ run 256 init as = some s ∧ s.uaf = true ∧ s.ops.length ≤ 3 :=
  ⟨[.weakOf, .weakDrop, .next 0, .weakOf, .drop, .next 1, .next 1, .next 1, .next 1, .next 0, .next 0, .next 0,
    .weakDrop], _, by decide, rfl, by decide, by decide⟩

/-- No weak handles at all, but 257 handles dropped at the same time: the 8-bit counter wraps and the
control block is freed while other threads still have to decrement it. -/
theorem C44_violated_many :
    ∃ (as : List Act), (∀ a ∈ as, a = .copy ∨ a = .drop ∨ ∃ i, a = .next i) ∧
      ((run 256 init as).map (·.uaf)) = some true := by
  refine ⟨List.replicate 256 .copy ++ List.replicate 257 .drop ++ (List.range 257).map .next ++
    [.next 256, .next 256, .next 256, .next 0], ?_, by decide +kernel⟩
  intro a ha
  simp only [List.mem_append, List.mem_replicate, List.mem_map, List.mem_cons, List.not_mem_nil, or_false] at ha
  rcases ha with ((h | h) | ⟨i, _, h⟩) | h | h | h | h
  · exact .inl h.2
  · exact .inr (.inl h.2)
  · exact .inr (.inr ⟨i, h.symm⟩)
  all_goals exact .inr (.inr ⟨_, h⟩)

/-- What holds of C44 on all runs without upgrades, whatever the schedule and the number of threads:
the object is destroyed at most once, never while an ArcObj handle exists, and exactly once when
everything has come to rest without ArcObj handles.  (While the run has not used freed memory.) -/
theorem C44_object_partial (as : List Act) (s : St) (hup : Act.upgrade ∉ as) (h : run 256 init as = some s) :
    s.destroyed ≤ 1 ∧ (0 < s.strong → s.destroyed = 0) ∧
    (quiet s = true → s.strong = 0 → s.destroyed = 1) := by
  have hz := no_u1 (m := 256) as init hup rfl
  obtain ⟨h1, _, h3⟩ := run_inv (P := ObjInv) (Q := fun s _ => n s .u1 = 0)
    (fun s a s' hP hQ e => objInv_step hP e (fun i _ hi => by have := n_pos hi; omega)) as init s objInv_init hz h
  refine ⟨?_, ?_, ?_⟩
  · by_cases hz : s.ref = 0
    · have := h3.1 hz; omega
    · have := h3.2 hz; omega
  · intro hs
    have := h3.2 (by omega); omega
  · intro hQ hs
    have e1 := quiet_n hQ (p := .r1) (by decide); have e3 := quiet_n hQ (p := .r3) (by decide)
    have e4 := quiet_n hQ (p := .r4) (by decide); have e5 := quiet_n hQ (p := .r5) (by decide)
    have e6 := quiet_n hQ (p := .r6) (by decide); have e7 := quiet_n hQ (p := .r7) (by decide)
    have := h3.1 (by omega); omega

/-- Two threads, a weak handle dropped last: the hypotheses are met and the object is destroyed. -/
example : ∃ s, run 256 init [.copy, .weakOf, .drop, .drop, .next 0, .next 1, .next 0, .next 1, .next 1, .next 1] = some s ∧
    s.destroyed = 1 ∧ s.weakH = 1 ∧ quiet s = true := ⟨_, rfl, by decide⟩

/-- What holds of C44 for the control block: if fewer than 256 operations are ever in progress at
once, no weak handle is created while a thread that dropped the last weak handle is about to look
at the strong count, and upgrades complete only while ArcObj handles exist (C45), then nothing is used
after it is freed and the control block is freed at most once, and only when no handle is left.
Missing: freedom from leaks (see the next theorem), and runs outside the conditions, where the claim
is false. -/
theorem C44_control_partial (as : List Act) (s : St) (h : run 256 init as = some s)
    (hfew : ∀ x ∈ trace 256 init as, active x.1 < 256)
    (hmk : ∀ x ∈ trace 256 init as, x.2 = .weakOf ∨ x.2 = .weakCopy → .w3 ∉ x.1.ops)
    (hup : ∀ x ∈ trace 256 init as, ∀ i, x.2 = .next i → x.1.ops[i]? = some .u1 → x.1.ref ≠ 0) :
    s.uaf = false ∧ s.freed ≤ 1 ∧ (0 < s.freed → s.strong = 0 ∧ s.weakH = 0) := by
  have hi := run_inv (P := SafeInv 256) (Q := Cond 256) (fun s a s' hP hQ e => safeInv_step hP e hQ) as init s
    safeInv_init (fun x hx => ⟨hfew x hx, hup x hx, hmk x hx⟩) h
  refine ⟨hi.uaf, by have := hi.one; omega, ?_⟩
  intro hf
  have h0 := hi.zero (by omega)
  have h1 := hi.obj.ref
  have h2 := hi.obj.weak
  omega

/-- Three handles and a weak one, with overlapping drops, meet the hypotheses. -/
example : ∃ s, run 256 init [.copy, .weakOf, .weakDrop, .drop, .next 0, .next 1, .drop, .next 0, .next 1, .next 2,
      .next 2, .next 0, .next 2, .next 2, .next 2] = some s ∧ s.freed = 1 ∧ s.destroyed = 1 :=
  ⟨_, rfl, by decide⟩
example : ∀ x ∈ trace 256 init [.copy, .weakOf, .weakDrop, .drop, .next 0, .next 1, .drop, .next 0, .next 1, .next 2,
      .next 2, .next 0, .next 2, .next 2, .next 2], active x.1 < 256 ∧
      (x.2 = .weakOf ∨ x.2 = .weakCopy → .w3 ∉ x.1.ops) := by decide

/-- When the operations on handles do not overlap (at most one in progress at any time), nothing
leaks either: once all handles are gone the object has been destroyed once and the control block
freed once.  This is the full statement of C44 for handles used under a lock. -/
theorem C44_serial_partial (as : List Act) (s : St) (hup : Act.upgrade ∉ as) (h : run 256 init as = some s)
    (hone : ∀ x ∈ trace 256 init as, active x.1 ≤ 1)
    (hmk : ∀ x ∈ trace 256 init as, x.2 = .weakOf ∨ x.2 = .weakCopy → .w3 ∉ x.1.ops) :
    quiet s = true → s.strong = 0 → s.weakH = 0 → s.uaf = false ∧ s.destroyed = 1 ∧ s.freed = 1 := by
  intro hQ hs hw
  have hz := no_u1 (m := 256) as init hup rfl
  have hi := run_inv (P := fun s => SafeInv 256 s ∧ SeqInv s) (Q := fun s a => Cond 256 s a ∧ active s ≤ 1)
    (fun s a s' hP hQ e => ⟨safeInv_step hP.1 e hQ.1, seqInv_step hP.1 hP.2 e hQ.1 hQ.2⟩) as init s
    ⟨safeInv_init, by decide, by decide, by decide, by decide⟩
    (fun x hx => ⟨⟨by have := hone x hx; omega, fun i _ hi => by have := n_pos hi; have := hz x hx; omega, hmk x hx⟩, hone x hx⟩) h
  obtain ⟨⟨⟨h1, h2, h3⟩, _, _, _, _, _, h9⟩, q1, _⟩ := hi
  have e1 := quiet_n hQ (p := .r1) (by decide); have e2 := quiet_n hQ (p := .r2) (by decide)
  have e3 := quiet_n hQ (p := .r3) (by decide); have e4 := quiet_n hQ (p := .r4) (by decide)
  have e5 := quiet_n hQ (p := .r5) (by decide); have e6 := quiet_n hQ (p := .r6) (by decide)
  have e7 := quiet_n hQ (p := .r7) (by decide); have e8 := quiet_n hQ (p := .w1) (by decide)
  have e9 := quiet_n hQ (p := .w2) (by decide); have e10 := quiet_n hQ (p := .w3) (by decide)
  have e11 := quiet_n hQ (p := .w5) (by decide); have e12 := quiet_n hQ (p := .w6) (by decide)
  have e13 := quiet_n hQ (p := .u1) (by decide)
  have := h3.1 (by omega)
  have := q1 (by omega) (by omega) (by unfold inD; omega)
  exact ⟨h9, by omega, by omega⟩

/-- One handle copied, a weak handle made, all dropped one after the other. -/
example : ∃ s, run 256 init [.copy, .weakOf, .drop, .next 0, .next 0, .drop, .next 1, .next 1, .next 1, .next 1,
      .weakDrop, .next 2, .next 2, .next 2, .next 2] = some s ∧ quiet s = true ∧ s.strong = 0 ∧ s.weakH = 0 :=
  ⟨_, rfl, by decide⟩
example : ∀ x ∈ trace 256 init [.copy, .weakOf, .drop, .next 0, .next 0, .drop, .next 1, .next 1, .next 1, .next 1,
      .weakDrop, .next 2, .next 2, .next 2, .next 2], active x.1 ≤ 1 ∧
      (x.2 = .weakOf ∨ x.2 = .weakCopy → .w3 ∉ x.1.ops) := by decide

/-- It is enough that the end is in turn: whatever the threads did at the same time before (upgrades too, if they complete while ArcObj
handles exist), if at some moment a handle is left and nothing is in progress, and from then on the operations do not overlap, then once
all handles are gone the object has been destroyed once and the control block freed once.  Missing: last drops that overlap others. -/
theorem C44_last_in_turn_partial (as₁ as₂ : List Act) (s₁ s : St) (h₁ : run 256 init as₁ = some s₁) (h : run 256 s₁ as₂ = some s)
    (hq₁ : quiet s₁ = true) (hl : 0 < s₁.strong + s₁.weakH)
    (hfew : ∀ x ∈ trace 256 init as₁, active x.1 < 256)
    (hone : ∀ x ∈ trace 256 s₁ as₂, active x.1 ≤ 1)
    (hmk : ∀ x ∈ trace 256 init as₁ ++ trace 256 s₁ as₂, x.2 = .weakOf ∨ x.2 = .weakCopy → .w3 ∉ x.1.ops)
    (hup : ∀ x ∈ trace 256 init as₁ ++ trace 256 s₁ as₂, ∀ i, x.2 = .next i → x.1.ops[i]? = some .u1 → x.1.ref ≠ 0) :
    quiet s = true → s.strong = 0 → s.weakH = 0 → s.uaf = false ∧ s.destroyed = 1 ∧ s.freed = 1 := by
  intro hQ hs hw
  have hi₁ := run_inv (P := SafeInv 256) (Q := Cond 256) (fun s a s' hP hQ e => safeInv_step hP e hQ) as₁ init s₁ safeInv_init
    (fun x hx => ⟨hfew x hx, hup x (List.mem_append_left _ hx), hmk x (List.mem_append_left _ hx)⟩) h₁
  have hseq : SeqInv s₁ := by
    have e1 := quiet_n hq₁ (p := .r2) (by decide); have e2 := quiet_n hq₁ (p := .r4) (by decide)
    have e3 := quiet_n hq₁ (p := .w2) (by decide)
    have := hi₁.obj.ref; have := hi₁.obj.weak
    exact ⟨fun a b => by omega, fun a => by omega, fun a => by omega, fun a => by omega⟩
  have hi := run_inv (P := fun s => SafeInv 256 s ∧ SeqInv s) (Q := fun s a => Cond 256 s a ∧ active s ≤ 1)
    (fun s a s' hP hQ e => ⟨safeInv_step hP.1 e hQ.1, seqInv_step hP.1 hP.2 e hQ.1 hQ.2⟩) as₂ s₁ s ⟨hi₁, hseq⟩
    (fun x hx => ⟨⟨by have := hone x hx; omega, hup x (List.mem_append_right _ hx), hmk x (List.mem_append_right _ hx)⟩, hone x hx⟩) h
  obtain ⟨⟨⟨h1, h2, h3⟩, _, _, _, _, _, h9⟩, q1, _⟩ := hi
  have e1 := quiet_n hQ (p := .r1) (by decide); have e2 := quiet_n hQ (p := .r2) (by decide)
  have e3 := quiet_n hQ (p := .r3) (by decide); have e4 := quiet_n hQ (p := .r4) (by decide)
  have e5 := quiet_n hQ (p := .r5) (by decide); have e6 := quiet_n hQ (p := .r6) (by decide)
  have e7 := quiet_n hQ (p := .r7) (by decide); have e8 := quiet_n hQ (p := .w1) (by decide)
  have e9 := quiet_n hQ (p := .w2) (by decide); have e10 := quiet_n hQ (p := .w3) (by decide)
  have e11 := quiet_n hQ (p := .w5) (by decide); have e12 := quiet_n hQ (p := .w6) (by decide)
  have e13 := quiet_n hQ (p := .u1) (by decide)
  have := h3.1 (by omega)
  have := q1 (by omega) (by omega) (by unfold inD; omega)
  exact ⟨h9, by omega, by omega⟩

/-- Three handles: two are dropped at the same time, the third afterwards. -/
example : ∃ s₁ s, run 256 init [.copy, .copy, .drop, .drop, .next 0, .next 1, .next 1, .next 0] = some s₁ ∧
    run 256 s₁ [.drop, .next 2, .next 2, .next 2, .next 2, .next 2] = some s ∧ quiet s₁ = true ∧ s₁.strong = 1 ∧
    quiet s = true ∧ s.strong = 0 ∧ s.weakH = 0 := ⟨_, _, rfl, rfl, by decide⟩

/-- C45 as stated: whenever an ArcObj handle exists (also one obtained by upgrading), the object has
not been destroyed. -/
def C45_statement : Prop :=
  ∀ (as : List Act) (s : St), run 256 init as = some s → 0 < s.strong → s.destroyed = 0

/-- Two threads: one reads a positive count, the other drops the last handle and destroys the object,
the first takes its reference. -/
theorem C45_violated : ¬ C45_statement := by
  intro h
  have := h [.weakOf, .upgrade, .drop, .next 1, .next 1, .next 1, .next 1, .next 0] _ rfl (by decide)
  exact absurd this (by decide)

/-- What holds of C45: if the second half of every upgrade takes place while the count is still
positive, then every ArcObj handle, also one obtained by upgrading, refers to a live object; and an
upgrade that finds the count at zero creates no handle.  Missing: upgrades overtaken by the drop of the
last handle, where the claim is false. -/
theorem C45_upgrade_partial (as : List Act) (s : St) (h : run 256 init as = some s)
    (hup : ∀ x ∈ trace 256 init as, ∀ i, x.2 = .next i → x.1.ops[i]? = some .u1 → x.1.ref ≠ 0) :
    (0 < s.strong → s.destroyed = 0) ∧
    (∀ s', s.ref = 0 → step 256 s .upgrade = some s' → s'.strong = s.strong ∧ s'.ops = s.ops) := by
  obtain ⟨h1, _, h3⟩ := run_inv (P := ObjInv) (Q := fun s a => ∀ i, a = .next i → s.ops[i]? = some .u1 → s.ref ≠ 0)
    (fun s a s' hP hQ e => objInv_step hP e hQ) as init s objInv_init hup h
  refine ⟨fun hs => by have := h3.2 (by omega); omega, ?_⟩
  intro s' hr hs
  simp only [step, hr, if_true] at hs
  split at hs <;> cases hs
  exact ⟨touch_strong s, touch_ops s⟩

/-- An upgrade that completes while another handle exists, after which that handle is dropped. -/
example : ∃ s, run 256 init [.weakOf, .upgrade, .drop, .next 0, .next 1, .next 1] = some s ∧ s.strong = 1 ∧
    s.destroyed = 0 ∧ quiet s = true := ⟨_, rfl, by decide⟩

end Salticidae
