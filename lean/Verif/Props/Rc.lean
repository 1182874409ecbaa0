import Verif.Lemmas.Rc
/-
Property theorems for RcObj, WeakObj and BoxObj used from one thread (C42, C43, C46).
-/
namespace Salticidae
section
open Rc

/-- C42.  Any program over any number of strong and weak handles runs without touching a freed
control block and without destroying an object twice; after it,
 * an object is not yet destroyed iff some strong handle owns it;
 * a control block is not yet freed iff some strong or weak handle refers to it;
 * `get_cnt` of an owning handle is the number of strong handles sharing its control block, which
   are handles to the same object, and owners of one object share one control block;
 * upgrading a weak handle gives a handle to its object while the object lives, otherwise null. -/
theorem C42_rc_lifetime (n m : Nat) (ops : List Op) :
    ∃ h, run (Heap.init n m) ops = some h ∧ h.strong.length = n ∧ h.weak.length = m ∧
      (∀ (o : Nat) (dead : Bool), h.objs[o]? = some dead →
        (dead = false ↔ ∃ s ∈ h.strong, s.ctl ≠ none ∧ s.obj = some o)) ∧
      (∀ (c : Nat) (k : Ctl), h.ctls[c]? = some k →
        (k.alive = true ↔ ∃ s, (s ∈ h.strong ∨ s ∈ h.weak) ∧ s.ctl = some c)) ∧
      (∀ s ∈ h.strong, s.ctl ≠ none → getCnt h s = some (h.strong.countP (fun t => t.ctl = s.ctl))) ∧
      (∀ s t : Handle, (s ∈ h.strong ∨ s ∈ h.weak) → (t ∈ h.strong ∨ t ∈ h.weak) → s.ctl ≠ none → t.ctl ≠ none →
        (s.ctl = t.ctl → s.obj = t.obj) ∧ (∀ o, s.obj = some o → t.obj = some o → s.ctl = t.ctl)) ∧
      (∀ (d w : Nat) (hw : Handle), d < n → h.weak[w]? = some hw →
        ∃ h', step h (.upgrade d w) = some h' ∧
          (∀ o, hw.ctl ≠ none → hw.obj = some o → h.objs[o]? = some false → h'.strong[d]? = some hw) ∧
          (hw.ctl = none → h'.strong[d]? = some ⟨none, none⟩) ∧
          (∀ o, hw.ctl ≠ none → hw.obj = some o → h.objs[o]? = some true → h'.strong[d]? = some ⟨none, none⟩)) := by
  obtain ⟨h, own, h1, hi, hn, hm⟩ := inv_run (ops := ops) (inv_init n m)
  simp [Heap.init] at hn hm
  refine ⟨h, h1, hn, hm, ?_, ?_, ?_, ?_, ?_⟩
  · intro o dead ho
    obtain ⟨c, hc⟩ := hi.surj o (List.getElem?_eq_some_iff.1 ho).1
    obtain ⟨k, hk, hd⟩ := hi.obj c o hc
    rw [ho] at hd
    injection hd with hd
    have hcnt := (hi.count c k hk).1
    simp at hcnt
    constructor
    · intro hf
      have : 0 < cnt c h.strong := by
        rw [hf] at hd
        have : ¬ k.ref = 0 := by simpa using hd.symm
        omega
      obtain ⟨s, hs, hsc⟩ := cnt_pos_iff.1 this
      have hv := hi.val s (.inl (by simp [hs])) c hsc
      rw [hc] at hv
      injection hv with hv
      exact ⟨s, hs, by rw [hsc]; simp, hv.symm⟩
    · rintro ⟨s, hs, hsc, hso⟩
      obtain ⟨c', hc'⟩ := Option.ne_none_iff_exists'.1 hsc
      have hv := hi.val s (.inl (by simp [hs])) c' hc'
      rw [hso] at hv
      have := hi.inj _ _ _ hc hv
      subst this
      have := cnt_pos (l := h.strong) hs hc'
      rw [hd]; simp; omega
  · intro c k hk
    obtain ⟨a, b, e⟩ := hi.count c k hk
    simp at a b
    rw [e]
    constructor
    · intro hpos
      by_cases hz : 0 < cnt c h.strong
      · obtain ⟨s, hs, hsc⟩ := cnt_pos_iff.1 hz
        exact ⟨s, .inl hs, hsc⟩
      · obtain ⟨s, hs, hsc⟩ := cnt_pos_iff.1 (show 0 < cnt c h.weak by omega)
        exact ⟨s, .inr hs, hsc⟩
    · rintro ⟨s, hs | hs, hsc⟩
      · have := cnt_pos (l := h.strong) hs hsc; omega
      · have := cnt_pos (l := h.weak) hs hsc; omega
  · intro s hs hsc
    obtain ⟨c, hc⟩ := Option.ne_none_iff_exists'.1 hsc
    obtain ⟨k, g1, g2, g3⟩ := hi.ctl (s := s) (.inl (by simp [hs])) hc
    have := (hi.count c k g1).1
    simp at this
    simp only [getCnt, hc, g2, Option.map_some, this, cnt]
    exact congrArg some (List.countP_congr (by simp))
  · have mem : ∀ s : Handle, (s ∈ h.strong ∨ s ∈ h.weak) → s ∈ h.strong ++ [] ∨ s ∈ h.weak ++ [] := by simp
    intro s t hs ht hsc htc
    obtain ⟨c, hc⟩ := Option.ne_none_iff_exists'.1 hsc
    obtain ⟨c', hc'⟩ := Option.ne_none_iff_exists'.1 htc
    have v1 := hi.val s (mem s hs) c hc
    have v2 := hi.val t (mem t ht) c' hc'
    constructor
    · intro heq
      rw [hc, hc'] at heq
      cases heq
      rw [v1] at v2; injection v2
    · intro o h1 h2
      rw [h1] at v1; rw [h2] at v2
      rw [hc, hc', hi.inj _ _ _ v1 v2]
  · intro d w hw hd hwm
    have hd' : d < h.strong.length := by omega
    obtain ⟨old, e2⟩ : ∃ old, h.strong[d]? = some old := ⟨_, List.getElem?_eq_getElem hd'⟩
    obtain ⟨hnull, n1, _, n3, _⟩ := (hi.tmpNull .null rfl).assign e2
    simp only [step, hwm, e2]
    rcases hc : hw.ctl with _ | c
    · refine ⟨hnull, n1, ?_, ?_, ?_⟩
      · intro o hx; exact absurd rfl hx
      · intro _; rw [n3]; simp [hd', Handle.null]
      · intro o hx; exact absurd rfl hx
    · obtain ⟨k, k1, k2, k3⟩ := hi.ctl (s := hw) (.inr (by simp [List.mem_of_getElem? hwm])) hc
      simp only [k2]
      by_cases hr : k.ref = 0
      · rw [if_neg (by simpa using hr)]
        refine ⟨hnull, n1, ?_, by intro hx; simp at hx, ?_⟩
        · intro o _ ho hobj
          rw [ho] at k3
          obtain ⟨k', g1, g2⟩ := hi.obj c o k3
          rw [k1] at g1; cases g1
          rw [hobj] at g2
          simp [hr] at g2
        · intro o _ _ _; rw [n3]; simp [hd', Handle.null]
      · rw [if_pos (by simpa using hr)]
        obtain ⟨h1', g1, g2, g3, g4, _⟩ := hi.addRef (s := hw) k3 hc k1 hr
        obtain ⟨h2', g5, g6, g7, g8⟩ := g2.assign (d := d) (old := old) (by rw [g3]; exact e2)
        refine ⟨h2', by rw [g1]; exact g5, ?_, by intro hx; simp at hx, ?_⟩
        · intro o _ _ _; rw [g7, g3]; simp [hd']
        · intro o _ ho hobj
          rw [ho] at k3
          obtain ⟨k', f1, f2⟩ := hi.obj c o k3
          rw [k1] at f1; cases f1
          rw [hobj] at f2
          simp [hr] at f2

/-- A program that shares, moves, weakly refers and drops. -/
example : run (Heap.init 3 1) [.create 0, .copy 1 0, .weakOf 0 1, .move 2 0, .drop 1, .upgrade 0 0, .drop 2, .drop 0, .upgrade 1 0]
    = some ⟨[true], [⟨0, 1, true⟩], [.null, .null, .null], [⟨some 0, some 0⟩]⟩ := by decide

/-- C43, full statement: after moving out of a handle, in any program, the handle tests false. -/
def C43_statement : Prop :=
  ∀ (n m : Nat) (ops : List Op) (h h' : Heap) (d s : Nat) (hs : Handle), run (Heap.init n m) ops = some h →
    d < n → s < n → d ≠ s → step h (.move d s) = some h' → h'.strong[s]? = some hs → isTrue hs = false

/-- C43 fails: the moved-from handle still points at the object. -/
theorem C43_violated : ¬ C43_statement := by
  intro h
  have := h 2 0 [.create 0] ⟨[false], [⟨1, 0, true⟩], [⟨some 0, some 0⟩, .null], []⟩
    ⟨[false], [⟨1, 0, true⟩], [⟨some 0, none⟩, ⟨some 0, some 0⟩], []⟩ 1 0 ⟨some 0, none⟩
    (by decide) (by decide) (by decide) (by decide) (by decide) (by decide)
  revert this; decide

/-- C43 fails badly: a program that only moves and drops ends with a handle that tests true although
its object has been destroyed. -/
theorem C43_violated_dangling :
    ∃ h s, run (Heap.init 2 0) [.create 0, .move 1 0, .drop 1] = some h ∧ h.strong[0]? = some s ∧
      isTrue s = true ∧ s.obj = some 0 ∧ h.objs[0]? = some true :=
  ⟨⟨[true], [⟨0, 0, false⟩], [⟨some 0, none⟩, .null], []⟩, ⟨some 0, none⟩, by decide, by decide, by decide, by decide, by decide⟩

/-- C43, the rest: after any program, moving from slot `s` to another slot leaves in `s` a handle that
owns nothing (`get_cnt` 0), the destination receives exactly what the source held, and dropping or
overwriting the moved-from handle destroys nothing and frees nothing. -/
theorem C43_moved_partial (n m : Nat) (ops : List Op) (d s : Nat) (hd : d < n) (hs : s < n) (hne : d ≠ s) :
    ∃ h h' hs₀ hs₁, run (Heap.init n m) ops = some h ∧ h.strong[s]? = some hs₀ ∧
      step h (.move d s) = some h' ∧ h'.strong[d]? = some hs₀ ∧ h'.strong[s]? = some hs₁ ∧
      getCnt h' hs₁ = some 0 ∧
      ∃ h'', step h' (.drop s) = some h'' ∧ h''.objs = h'.objs ∧ h''.ctls = h'.ctls := by
  obtain ⟨h, own, h1, hi, hn, hm⟩ := inv_run (ops := ops) (inv_init n m)
  simp [Heap.init] at hn hm
  have e1 : h.strong[s]? = some h.strong[s] := List.getElem?_eq_getElem (by omega)
  have e2 : h.strong[d]? = some h.strong[d] := List.getElem?_eq_getElem (by omega)
  obtain ⟨h', g5, g6, g7, g8⟩ := (hi.takeOut e1).assign (d := d) (old := h.strong[d])
    (by simp only [List.getElem?_set]; rw [if_neg (fun h => hne h.symm)]; exact e2)
  refine ⟨h, h', h.strong[s], ⟨h.strong[s].obj, none⟩, h1, e1, ?_, ?_, ?_, rfl, ?_⟩
  · simp only [step, if_neg hne, e1, e2]; exact g5
  · rw [g7]; simp [hn, hd]
  · rw [g7, List.getElem?_set_ne hne]; simp [hn, hs]
  · have e3 : h'.strong[s]? = some ⟨h.strong[s].obj, none⟩ := by
      rw [g7, List.getElem?_set_ne hne]; simp [hn, hs]
    refine ⟨{ h' with strong := h'.strong.set s .null }, ?_, rfl, rfl⟩
    simp [step, assign, e3, dtor]

/-- In programs that move no strong handle, a handle tests true exactly when it points at an object, and that object is then alive and
counts the handle.  Missing: programs that move (`C43_violated_dangling`). -/
theorem C43_tests_partial (n m : Nat) (ops : List Op) (h : Heap) (hrun : run (Heap.init n m) ops = some h)
    (hm : ∀ d s, .move d s ∉ ops ∧ .castMove d s ∉ ops) (x : Handle) (hx : x ∈ h.strong) :
    (isTrue x = true → ∃ o k, x.obj = some o ∧ h.objs[o]? = some false ∧ getCnt h x = some k ∧ 0 < k) ∧
    (isTrue x = false → x.obj = none) := by
  have hh : NoHusk h := by
    refine noHusk_run ?_ ?_ hrun
    · intro op ho
      cases op with
      | move d s => exact absurd ho (hm d s).1
      | castMove d s => exact absurd ho (hm d s).2
      | _ => rfl
    · intro s hs
      simp only [Heap.init, List.mem_replicate] at hs
      rw [hs.2]; intro _; rfl
  obtain ⟨h', own, h1, hi, -, -⟩ := inv_run (ops := ops) (inv_init n m)
  rw [hrun] at h1; cases h1
  unfold Rc.isTrue
  constructor
  · intro ht
    obtain ⟨o, ho⟩ := Option.isSome_iff_exists.1 ht
    rcases hc : x.ctl with _ | c
    · have := hh x hx hc; rw [ho] at this; cases this
    · obtain ⟨k, g1, g2, g3⟩ := hi.ctl (s := x) (.inl (by simp [hx])) hc
      have hpos := cnt_pos hx hc
      have hcount := (hi.count c k g1).1
      simp at hcount
      rw [ho] at g3
      obtain ⟨k', f1, f2⟩ := hi.obj c o g3
      rw [g1] at f1; cases f1
      refine ⟨o, k.ref, ho, ?_, by simp [getCnt, hc, g2], by omega⟩
      rw [f2]; simp; omega
  · intro ht
    simpa using ht

/-- A program without moves; the handle in slot 2 was made from a weak one. -/
example : ∃ h, run (Heap.init 3 1) [.create 0, .copy 1 0, .weakOf 0 1, .drop 0, .upgrade 2 0, .drop 1] = some h ∧
    h.strong.map isTrue = [false, false, true] ∧ h.objs = [false] := ⟨_, rfl, by decide⟩

example : (1 : Nat) < 2 ∧ (0 : Nat) < 2 ∧ (1 : Nat) ≠ 0 := by decide
end

section
open Box

/-- How many of a program's boxes hold object `o`. -/
def Box.owners (h : Box.Heap) (o : Nat) : Nat := h.slots.countP (fun p => p = some o)

/-- C46, full statement: after any program over any number of boxes every object has been destroyed
at most once, and it has exactly one owner (a box, or the caller that unwrapped it) if and only if
it has not been destroyed. -/
def C46_statement : Prop :=
  ∀ (n : Nat) (ops : List Box.Op) (o k : Nat),
    let h := Box.run (Box.Heap.init n) ops
    h.destroyed[o]? = some k →
    k ≤ 1 ∧ owners h o + h.raw.count o ≤ 1 ∧ (k = 0 ↔ owners h o + h.raw.count o = 1)

/-- C46 fails: static_pointer_cast leaves the source box owning the object too, and it is destroyed
twice. -/
theorem C46_violated : ¬ C46_statement := by
  intro h
  have := h 2 [.create 0, .cast 1 0, .drop 1, .drop 0] 0 2 (by decide)
  omega

/-- C46, the rest: programs that do not use static_pointer_cast. -/
theorem C46_box_partial (n : Nat) (ops : List Box.Op) (hnc : ∀ d s, Box.Op.cast d s ∉ ops) (o k : Nat) :
    let h := Box.run (Box.Heap.init n) ops
    h.destroyed[o]? = some k →
    k ≤ 1 ∧ owners h o + h.raw.count o ≤ 1 ∧ (k = 0 ↔ owners h o + h.raw.count o = 1) := by
  -- invariant: owners + raw + destroyed = 1 for every created object, 0 for the others
  let own := fun (h : Box.Heap) (o : Nat) => owners h o + h.raw.count o + (h.destroyed[o]?.getD 0)
  let I := fun (h : Box.Heap) => ∀ o, own h o = if o < h.destroyed.length then 1 else 0
  have hassign : ∀ (h : Box.Heap) (d : Nat) (old p : Option Nat), h.slots[d]? = some old →
      (∀ o, own h o + (if p = some o then 1 else 0) = if o < h.destroyed.length then 1 else 0) → I (Box.assign h d p) := by
    intro h d old p hd hI o
    have hc := countP_set hd o p
    have h0 := hI o
    simp only [own, owners] at h0 ⊢
    simp only [Box.assign, hd]
    cases old with
    | none =>
      simp only [Box.dtor]
      rw [if_neg (show ¬ (none : Option Nat) = some o by simp)] at hc
      have e : ∀ x : Nat, x = (if o < h.destroyed.length then 1 else 0) →
          x = (if o < (Box.dtor { h with slots := h.slots.set d p } none).destroyed.length then 1 else 0) :=
        fun x hx => hx
      exact e _ (by omega)
    | some o' =>
      simp only [Box.dtor, List.length_modify, List.getElem?_modify]
      by_cases ho : o' = o
      · subst ho
        rw [if_pos rfl] at hc
        by_cases hlt : o' < h.destroyed.length
        · rw [List.getElem?_eq_getElem hlt] at h0 ⊢
          simp only [if_true, Option.map_some, Option.getD_some, Option.map_eq_map] at h0 ⊢
          omega
        · rw [if_neg hlt] at h0
          omega
      · rw [if_neg (by simpa using ho)] at hc
        simp only [if_neg ho, Option.map_eq_map, Option.map_id_fun', id]
        omega
  have hstep : ∀ h op, (∀ d s, op ≠ Box.Op.cast d s) → I h → I (Box.step h op) := by
    intro h op hop hI
    cases op with
    | cast d s => exact absurd rfl (hop d s)
    | drop d =>
      simp only [Box.step]
      rcases hd : h.slots[d]? with _ | old
      · simp only [Box.assign, hd]; exact hI
      · exact hassign h d old none hd (by simpa using hI)
    | create d =>
      simp only [Box.step]
      rcases hd : h.slots[d]? with _ | old
      · exact hI
      · refine hassign _ d old _ hd ?_
        intro o
        have := hI o
        simp only [own, owners, List.length_append, List.length_singleton, List.getElem?_append] at this ⊢
        by_cases h1 : o < h.destroyed.length
        · rw [if_pos h1] at this ⊢
          have h2 : ¬ some h.destroyed.length = some o := by simp; omega
          rw [if_neg h2, if_pos (by omega)]; omega
        · rw [if_neg h1] at this ⊢
          rw [List.getElem?_eq_none (by omega)] at this
          by_cases h2 : o = h.destroyed.length
          · subst h2; simp at this ⊢; omega
          · have h3 : ¬ some h.destroyed.length = some o := by simp; omega
            rw [if_neg h3, if_neg (by omega)]
            have : o - h.destroyed.length ≠ 0 := by omega
            rw [List.getElem?_eq_none (by simp; omega)]
            simp at *; omega
    | move d s =>
      simp only [Box.step]
      split
      · exact hI
      · rename_i hne
        split
        · rename_i p old e1 e2
          refine hassign _ d old p (by simp only [List.getElem?_set]; rw [if_neg (fun h => hne h.symm)]; exact e2) ?_
          intro o
          have h0 := hI o
          have hc := countP_set e1 o none
          simp only [own, owners] at h0 ⊢
          simp at hc; omega
        · exact hI
    | unwrap s =>
      simp only [Box.step]
      split
      · rename_i p e1
        intro o
        have h0 := hI o
        have hc := countP_set e1 o none
        simp only [own, owners] at h0 ⊢
        simp [List.count_cons] at hc ⊢
        by_cases ho : p = o <;> simp [ho] at hc ⊢ <;> omega
      · exact hI
    | wrap d p =>
      simp only [Box.step]
      split
      · rename_i old e1
        split
        · rename_i hm
          refine hassign _ d old (some p) e1 ?_
          intro o
          have h0 := hI o
          simp only [own, owners] at h0 ⊢
          by_cases ho : p = o
          · subst ho
            have := List.count_pos_iff.2 hm
            rw [List.count_erase_self, if_pos rfl]; omega
          · rw [if_neg (by simpa using ho), List.count_erase_of_ne (fun h => ho h.symm)]; omega
        · exact hI
      · exact hI
  have hrun : ∀ ops h, (∀ d s, Box.Op.cast d s ∉ ops) → I h → I (Box.run h ops) := by
    intro ops
    induction ops with
    | nil => intro h _ hI; exact hI
    | cons op ops ih =>
      intro h hnc hI
      exact ih _ (fun d s hm => hnc d s (by simp [hm]))
        (hstep h op (fun d s he => hnc d s (by simp [he])) hI)
  have hI := hrun ops (Box.Heap.init n) hnc (by
    intro o
    simp [own, owners, Box.Heap.init, List.countP_replicate])
  intro h hk
  have := hI o
  simp only [own] at this
  have hlt := (List.getElem?_eq_some_iff.1 hk).1
  change owners h o + h.raw.count o + (h.destroyed[o]?.getD 0) = if o < h.destroyed.length then 1 else 0 at this
  rw [hk, if_pos hlt] at this
  simp at this
  omega

example : (Box.run (Box.Heap.init 2) [.create 0, .move 1 0, .unwrap 1, .wrap 0 0, .create 1, .move 0 1, .drop 0]).destroyed
    = [1, 1] := by decide

end
end Salticidae
