import Verif.Model.Rc
namespace Salticidae
namespace Rc

/-- Number of handles in a list that hold control block `c`. -/
def cnt (c : Nat) (l : List Handle) : Nat := l.countP (fun s => s.ctl == some c)

@[simp] theorem cnt_append (c : Nat) (a b : List Handle) : cnt c (a ++ b) = cnt c a + cnt c b := by
  simp [cnt]

@[simp] theorem cnt_cons (c : Nat) (s : Handle) (l : List Handle) :
    cnt c (s :: l) = (if s.ctl = some c then 1 else 0) + cnt c l := by
  simp [cnt, List.countP_cons]; omega

@[simp] theorem cnt_nil (c : Nat) : cnt c [] = 0 := rfl

theorem cnt_set {l : List Handle} {d : Nat} {old : Handle} (h : l[d]? = some old) (c : Nat) (t : Handle) :
    cnt c (l.set d t) + (if old.ctl = some c then 1 else 0) = cnt c l + (if t.ctl = some c then 1 else 0) := by
  induction l generalizing d with
  | nil => simp at h
  | cons a l ih =>
    cases d with
    | zero => simp at h; subst h; simp; omega
    | succ d => simp at h; have := ih h; simp; omega

theorem cnt_pos {c : Nat} {s : Handle} {l : List Handle} (h : s ∈ l) (hc : s.ctl = some c) : 0 < cnt c l := by
  unfold cnt; rw [List.countP_pos_iff]; exact ⟨s, h, by simp [hc]⟩

theorem cnt_pos_iff {c : Nat} {l : List Handle} : 0 < cnt c l ↔ ∃ s ∈ l, s.ctl = some c := by
  unfold cnt; rw [List.countP_pos_iff]; simp

theorem mem_set {l : List Handle} {d : Nat} {t s : Handle} (h : s ∈ l.set d t) : s = t ∨ s ∈ l := by
  rcases List.mem_or_eq_of_mem_set h with h | h
  · exact .inr h
  · exact .inl h

/-- `ts`, `tw`: temporaries. `own[c]`: the object of control block `c`. -/
structure Inv (h : Heap) (own : List (Option Nat)) (ts tw : List Handle) : Prop where
  len : own.length = h.ctls.length
  count : ∀ (c : Nat) (k : Ctl), h.ctls[c]? = some k → k.ref = cnt c (h.strong ++ ts) ∧ k.weak = cnt c (h.weak ++ tw) ∧
    (k.alive = true ↔ 0 < k.ref + k.weak)
  val : ∀ s : Handle, s ∈ h.strong ++ ts ∨ s ∈ h.weak ++ tw → ∀ c, s.ctl = some c → own[c]? = some s.obj
  obj : ∀ (c o : Nat), own[c]? = some (some o) → ∃ k, h.ctls[c]? = some k ∧ h.objs[o]? = some (decide (k.ref = 0))
  inj : ∀ (c c' o : Nat), own[c]? = some (some o) → own[c']? = some (some o) → c = c'
  surj : ∀ o : Nat, o < h.objs.length → ∃ c : Nat, own[c]? = some (some o)

variable {h : Heap} {own : List (Option Nat)} {ts tw : List Handle}

theorem Inv.ctl (hi : Inv h own ts tw) {s : Handle} (hs : s ∈ h.strong ++ ts ∨ s ∈ h.weak ++ tw) {c : Nat}
    (hc : s.ctl = some c) : ∃ k, h.ctls[c]? = some k ∧ h.ctl? c = some k ∧ own[c]? = some s.obj := by
  have h1 := hi.val s hs c hc
  have h2 : c < h.ctls.length := by
    rw [← hi.len]; exact (List.getElem?_eq_some_iff.1 h1).1
  have h3 : h.ctls[c]? = some h.ctls[c] := by simp [h2]
  refine ⟨_, h3, ?_, h1⟩
  obtain ⟨a, b, e⟩ := hi.count c _ h3
  have : h.ctls[c].alive = true := by
    rw [e]
    rcases hs with hs | hs
    · have := cnt_pos hs hc; omega
    · have := cnt_pos hs hc; omega
  unfold Heap.ctl?
  rw [h3]; simp [this]

/-- Changing one control block, keeping whether its `ref` is 0. -/
theorem Inv.put (hi : Inv h own ts tw) {c : Nat} {k k' : Ctl} (hk : h.ctls[c]? = some k) {ts' tw' : List Handle}
    (h0 : (k'.ref = 0) = (k.ref = 0))
    (hc : k'.ref = cnt c (h.strong ++ ts') ∧ k'.weak = cnt c (h.weak ++ tw') ∧ (k'.alive = true ↔ 0 < k'.ref + k'.weak))
    (ho : ∀ c', c' ≠ c → cnt c' ts' = cnt c' ts ∧ cnt c' tw' = cnt c' tw)
    (hv : ∀ s : Handle, s ∈ ts' ∨ s ∈ tw' → ∀ c, s.ctl = some c → own[c]? = some s.obj) :
    Inv (h.putCtl c k') own ts' tw' := by
  have hlt := (List.getElem?_eq_some_iff.1 hk).1
  refine ⟨by simp [Heap.putCtl, hi.len], ?_, ?_, ?_, hi.inj, hi.surj⟩
  · intro c' k'' hk''
    simp only [Heap.putCtl, List.getElem?_set] at hk'' ⊢
    by_cases hcc : c = c'
    · subst hcc
      simp [hlt] at hk''; subst hk''
      exact hc
    · simp [hcc] at hk''
      obtain ⟨a, b, e⟩ := hi.count c' k'' hk''
      obtain ⟨o1, o2⟩ := ho c' (fun h => hcc h.symm)
      simp only [cnt_append] at a b ⊢
      rw [o1, o2]
      exact ⟨a, b, e⟩
  · intro s hs c hc
    rcases hs with hs | hs
    · rcases List.mem_append.1 hs with hs | hs
      · exact hi.val s (.inl (List.mem_append_left _ hs)) c hc
      · exact hv s (.inl hs) c hc
    · rcases List.mem_append.1 hs with hs | hs
      · exact hi.val s (.inr (List.mem_append_left _ hs)) c hc
      · exact hv s (.inr hs) c hc
  · intro c' o ho'
    obtain ⟨k0, h1, h2⟩ := hi.obj c' o ho'
    simp only [Heap.putCtl, List.getElem?_set]
    by_cases hcc : c = c'
    · subst hcc
      rw [hk] at h1; cases h1
      refine ⟨k', by simp [hlt], ?_⟩
      rw [h2]; simp [h0]
    · exact ⟨k0, by simp [hcc, h1], h2⟩

theorem Inv.addRef (hi : Inv h own ts tw) {s : Handle} {c : Nat} (hs : own[c]? = some s.obj) (hc : s.ctl = some c)
    {k : Ctl} (hk : h.ctls[c]? = some k) (hr : k.ref ≠ 0) :
    ∃ h', Rc.addRef h c = some h' ∧ Inv h' own (s :: ts) tw ∧ h'.strong = h.strong ∧ h'.weak = h.weak ∧ h'.objs = h.objs := by
  obtain ⟨a, b, e⟩ := hi.count c k hk
  have hal : k.alive = true := by rw [e]; omega
  refine ⟨h.putCtl c { k with ref := k.ref + 1 }, by simp [Rc.addRef, Heap.ctl?, hk, hal], ?_, rfl, rfl, rfl⟩
  refine hi.put hk (by simp [hr]) ⟨?_, by simpa using b, by simp [hal]; omega⟩ ?_ ?_
  · simp [hc] at a ⊢; omega
  · intro c' hcc
    have : ¬ s.ctl = some c' := by rw [hc]; simpa using fun h => hcc h.symm
    simp [this]
  · intro s' hs' c' hc'
    rcases hs' with hs' | hs'
    · rcases List.mem_cons.1 hs' with rfl | hs'
      · rw [hc] at hc'; cases hc'; exact hs
      · exact hi.val s' (.inl (List.mem_append_right _ hs')) c' hc'
    · exact hi.val s' (.inr (List.mem_append_right _ hs')) c' hc'

theorem Inv.copyRef (hi : Inv h own ts tw) {s : Handle} (hs : s ∈ h.strong) :
    ∃ h', Rc.copyRef h s = some h' ∧ Inv h' own (s :: ts) tw ∧ h'.strong = h.strong ∧ h'.weak = h.weak ∧ h'.objs = h.objs := by
  unfold Rc.copyRef
  rcases hc : s.ctl with _ | c
  · refine ⟨h, rfl, ⟨hi.len, ?_, ?_, hi.obj, hi.inj, hi.surj⟩, rfl, rfl, rfl⟩
    · intro c k hk
      have := hi.count c k hk
      simp [hc] at this ⊢; omega
    · intro s' hs' c' hc'
      rcases hs' with hs' | hs'
      · rcases List.mem_append.1 hs' with h1 | h1
        · exact hi.val s' (.inl (List.mem_append_left _ h1)) c' hc'
        · rcases List.mem_cons.1 h1 with rfl | h1
          · rw [hc] at hc'; cases hc'
          · exact hi.val s' (.inl (List.mem_append_right _ h1)) c' hc'
      · exact hi.val s' (.inr hs') c' hc'
  · obtain ⟨k, h1, _, h3⟩ := hi.ctl (.inl (List.mem_append_left _ hs)) hc
    have := (hi.count c k h1).1
    have := cnt_pos (l := h.strong) hs hc
    exact hi.addRef h3 hc h1 (by simp at *; omega)

theorem Inv.copyWeak (hi : Inv h own ts tw) {s : Handle} (hs : s ∈ h.strong ∨ s ∈ h.weak) :
    ∃ h', Rc.copyWeak h s = some h' ∧ Inv h' own ts (s :: tw) ∧ h'.strong = h.strong ∧ h'.weak = h.weak ∧ h'.objs = h.objs := by
  have hs' : s ∈ h.strong ++ ts ∨ s ∈ h.weak ++ tw := by
    rcases hs with hs | hs
    · exact .inl (List.mem_append_left _ hs)
    · exact .inr (List.mem_append_left _ hs)
  unfold Rc.copyWeak
  rcases hc : s.ctl with _ | c
  · refine ⟨h, rfl, ⟨hi.len, ?_, ?_, hi.obj, hi.inj, hi.surj⟩, rfl, rfl, rfl⟩
    · intro c k hk
      have := hi.count c k hk
      simp [hc] at this ⊢; omega
    · intro s' hs' c' hc'
      rcases hs' with hs' | hs'
      · exact hi.val s' (.inl hs') c' hc'
      · rcases List.mem_append.1 hs' with h1 | h1
        · exact hi.val s' (.inr (List.mem_append_left _ h1)) c' hc'
        · rcases List.mem_cons.1 h1 with rfl | h1
          · rw [hc] at hc'; cases hc'
          · exact hi.val s' (.inr (List.mem_append_right _ h1)) c' hc'
  · obtain ⟨k, h1, h2, h3⟩ := hi.ctl hs' hc
    obtain ⟨a, b, e⟩ := hi.count c k h1
    have hal : k.alive = true := by
      unfold Heap.ctl? at h2; rw [h1] at h2; simp at h2; exact h2
    refine ⟨h.putCtl c { k with weak := k.weak + 1 }, by simp [Rc.addWeak, h2], ?_, rfl, rfl, rfl⟩
    refine hi.put h1 (by simp) ⟨by simpa using a, ?_, by simp [hal]; omega⟩ ?_ ?_
    · simp [hc] at b ⊢; omega
    · intro c' hcc
      have : ¬ s.ctl = some c' := by rw [hc]; simpa using fun h => hcc h.symm
      simp [this]
    · intro s' hs' c' hc'
      rcases hs' with hs' | hs'
      · exact hi.val s' (.inl (List.mem_append_right _ hs')) c' hc'
      · rcases List.mem_cons.1 hs' with rfl | hs'
        · rw [hc] at hc'; cases hc'; exact h3
        · exact hi.val s' (.inr (List.mem_append_right _ hs')) c' hc'

/-- Destroying a temporary strong handle. -/
theorem Inv.dtor {s : Handle} (hi : Inv h own (s :: ts) tw) :
    ∃ h', Rc.dtor h s = some h' ∧ Inv h' own ts tw ∧ h'.strong = h.strong ∧ h'.weak = h.weak := by
  unfold Rc.dtor
  have hval : ∀ s' : Handle, s' ∈ ts ∨ s' ∈ tw → ∀ c, s'.ctl = some c → own[c]? = some s'.obj := by
    intro s' hs' c' hc'
    rcases hs' with hs' | hs'
    · exact hi.val s' (.inl (by simp [hs'])) c' hc'
    · exact hi.val s' (.inr (by simp [hs'])) c' hc'
  rcases hc : s.ctl with _ | c
  · refine ⟨h, rfl, ⟨hi.len, ?_, ?_, hi.obj, hi.inj, hi.surj⟩, rfl, rfl⟩
    · intro c k hk
      have := hi.count c k hk
      simp [hc] at this ⊢; omega
    · intro s' hs' c' hc'
      refine hi.val s' ?_ c' hc'
      rcases hs' with hs' | hs'
      · left; simp at hs' ⊢; rcases hs' with h | h <;> simp [h]
      · right; exact hs'
  · obtain ⟨k, h1, h2, h3⟩ := hi.ctl (s := s) (.inl (by simp)) hc
    obtain ⟨a, b, e⟩ := hi.count c k h1
    have hlt := (List.getElem?_eq_some_iff.1 h1).1
    have hal : k.alive = true := by
      unfold Heap.ctl? at h2; rw [h1] at h2; simp at h2; exact h2
    have hother : ∀ c', c' ≠ c → cnt c' ts = cnt c' (s :: ts) ∧ cnt c' tw = cnt c' tw := by
      intro c' hcc
      have : ¬ s.ctl = some c' := by rw [hc]; simpa using fun h => hcc h.symm
      simp [this]
    have a' : k.ref = 1 + cnt c (h.strong ++ ts) := by simp [hc] at a ⊢; omega
    simp only [releaseRef, h2]
    rw [if_neg (by omega)]
    by_cases hr : k.ref - 1 = 0
    · rw [if_neg (by omega)]
      -- the object dies
      have key : ∀ k' : Ctl, k'.ref = 0 → k'.weak = k.weak → (k'.alive = true ↔ 0 < k'.weak) →
          ∃ h', destroy (h.putCtl c k') s.obj = some h' ∧ Inv h' own ts tw ∧ h'.strong = h.strong ∧ h'.weak = h.weak := by
        intro k' hk1 hk2 hk3
        have hcnt : ∀ (c' : Nat) (k'' : Ctl), (h.ctls.set c k')[c']? = some k'' → k''.ref = cnt c' (h.strong ++ ts) ∧
            k''.weak = cnt c' (h.weak ++ tw) ∧ (k''.alive = true ↔ 0 < k''.ref + k''.weak) := by
          intro c' k'' hk''
          rw [List.getElem?_set] at hk''
          by_cases hcc : c = c'
          · subst hcc
            simp [hlt] at hk''; subst hk''
            exact ⟨by omega, by omega, by rw [hk3]; omega⟩
          · simp [hcc] at hk''
            obtain ⟨a1, b1, e1⟩ := hi.count c' k'' hk''
            obtain ⟨o1, o2⟩ := hother c' (fun h => hcc h.symm)
            simp only [cnt_append] at a1 b1 ⊢
            rw [← o1] at a1
            exact ⟨a1, b1, e1⟩
        have hv : ∀ s' : Handle, s' ∈ h.strong ++ ts ∨ s' ∈ h.weak ++ tw → ∀ c, s'.ctl = some c → own[c]? = some s'.obj := by
          intro s' hs' c' hc'
          refine hi.val s' ?_ c' hc'
          rcases hs' with hs' | hs'
          · left; simp at hs' ⊢; rcases hs' with h | h <;> simp [h]
          · right; exact hs'
        rcases ho : s.obj with _ | o
        · refine ⟨_, rfl, ⟨by simp [Heap.putCtl, hi.len], hcnt, hv, ?_, hi.inj, hi.surj⟩, rfl, rfl⟩
          intro c' o' ho'
          obtain ⟨k0, g1, g2⟩ := hi.obj c' o' ho'
          have hcc : c ≠ c' := by
            rintro rfl; rw [h3, ho] at ho'; simp at ho'
          exact ⟨k0, by simp [Heap.putCtl, hcc, g1], g2⟩
        · rw [ho] at h3
          obtain ⟨k0, g1, g2⟩ := hi.obj c o h3
          rw [h1] at g1; cases g1
          have hfalse : h.objs[o]? = some false := by
            rw [g2]; simp; omega
          have holt := (List.getElem?_eq_some_iff.1 hfalse).1
          refine ⟨{ h.putCtl c k' with objs := h.objs.set o true }, ?_, ⟨by simp [Heap.putCtl, hi.len], hcnt, hv, ?_, hi.inj, ?_⟩, rfl, rfl⟩
          · simp [destroy, Heap.putCtl, hfalse]
          · intro c' o' ho'
            obtain ⟨k0, g3, g4⟩ := hi.obj c' o' ho'
            by_cases hcc : c = c'
            · subst hcc
              rw [h3] at ho'
              simp at ho'; subst ho'
              exact ⟨k', by simp [Heap.putCtl, hlt], by simp [holt, hk1]⟩
            · have hoo : o ≠ o' := by
                rintro rfl; exact hcc (hi.inj _ _ _ h3 ho')
              exact ⟨k0, by simp [Heap.putCtl, hcc, g3], by simp [hoo, g4]⟩
          · intro o' ho'
            simp at ho'
            exact hi.surj o' ho'
      by_cases hw : k.weak = 0
      · rw [if_neg (by simpa using hw)]
        simp only
        refine key { ref := k.ref - 1, weak := k.weak, alive := false } hr rfl (by simp [hw])
      · rw [if_pos (by simpa using hw)]
        simp only
        refine key { ref := k.ref - 1, weak := k.weak, alive := k.alive } hr rfl (by simp [hal]; omega)
    · rw [if_pos (by omega)]
      simp only
      refine ⟨_, rfl, ?_, rfl, rfl⟩
      refine hi.put h1 ?_ ⟨?_, by simpa using b, ?_⟩ hother hval
      · simp; omega
      · simp only; omega
      · simp [hal]; omega

theorem Inv.wdtor {s : Handle} (hi : Inv h own ts (s :: tw)) :
    ∃ h', Rc.wdtor h s = some h' ∧ Inv h' own ts tw ∧ h'.strong = h.strong ∧ h'.weak = h.weak := by
  unfold Rc.wdtor
  have hval : ∀ s' : Handle, s' ∈ ts ∨ s' ∈ tw → ∀ c, s'.ctl = some c → own[c]? = some s'.obj := by
    intro s' hs' c' hc'
    rcases hs' with hs' | hs'
    · exact hi.val s' (.inl (by simp [hs'])) c' hc'
    · exact hi.val s' (.inr (by simp [hs'])) c' hc'
  rcases hc : s.ctl with _ | c
  · refine ⟨h, rfl, ⟨hi.len, ?_, ?_, hi.obj, hi.inj, hi.surj⟩, rfl, rfl⟩
    · intro c k hk
      have := hi.count c k hk
      simp [hc] at this ⊢; omega
    · intro s' hs' c' hc'
      refine hi.val s' ?_ c' hc'
      rcases hs' with hs' | hs'
      · left; exact hs'
      · right; simp at hs' ⊢; rcases hs' with h | h <;> simp [h]
  · obtain ⟨k, h1, h2, h3⟩ := hi.ctl (s := s) (.inr (by simp)) hc
    obtain ⟨a, b, e⟩ := hi.count c k h1
    have hal : k.alive = true := by
      unfold Heap.ctl? at h2; rw [h1] at h2; simp at h2; exact h2
    have hother : ∀ c', c' ≠ c → cnt c' ts = cnt c' ts ∧ cnt c' tw = cnt c' (s :: tw) := by
      intro c' hcc
      have : ¬ s.ctl = some c' := by rw [hc]; simpa using fun h => hcc h.symm
      simp [this]
    have b' : k.weak = 1 + cnt c (h.weak ++ tw) := by simp [hc] at b ⊢; omega
    simp only [releaseWeak, h2]
    rw [if_neg (by omega)]
    have fin : ∀ k' : Ctl, k'.ref = k.ref → k'.weak = k.weak - 1 → (k'.alive = true ↔ 0 < k'.ref + k'.weak) →
        Inv (h.putCtl c k') own ts tw := by
      intro k' hk1 hk2 hk3
      exact hi.put h1 (by rw [hk1]) ⟨by rw [hk1]; simpa using a, by omega, hk3⟩ hother hval
    by_cases hw : k.weak - 1 = 0
    · rw [if_neg (by omega)]
      by_cases hr : k.ref = 0
      · rw [if_neg (by simpa using hr)]
        exact ⟨_, rfl, fin _ rfl rfl (by simp; omega), rfl, rfl⟩
      · rw [if_pos (by simpa using hr)]
        exact ⟨_, rfl, fin _ rfl rfl (by simp [hal]; omega), rfl, rfl⟩
    · rw [if_pos (by omega)]
      exact ⟨_, rfl, fin _ rfl rfl (by simp [hal]; omega), rfl, rfl⟩

/-- Swap the slot with a temporary. -/
theorem Inv.swap {t old : Handle} (hi : Inv h own (t :: ts) tw) {d : Nat} (hd : h.strong[d]? = some old) :
    Inv { h with strong := h.strong.set d t } own (old :: ts) tw := by
  refine ⟨hi.len, ?_, ?_, hi.obj, hi.inj, hi.surj⟩
  · intro c k hk
    obtain ⟨a, b, e⟩ := hi.count c k hk
    refine ⟨?_, b, e⟩
    have := cnt_set hd c t
    simp at a ⊢; omega
  · intro s hs c hc
    refine hi.val s ?_ c hc
    rcases hs with hs | hs
    · left
      rcases List.mem_append.1 hs with hs | hs
      · rcases mem_set hs with rfl | hs
        · simp
        · simp [hs]
      · rcases List.mem_cons.1 hs with rfl | hs
        · exact List.mem_append_left _ (List.mem_of_getElem? hd)
        · simp [hs]
    · right; exact hs

theorem Inv.wswap {t old : Handle} (hi : Inv h own ts (t :: tw)) {d : Nat} (hd : h.weak[d]? = some old) :
    Inv { h with weak := h.weak.set d t } own ts (old :: tw) := by
  refine ⟨hi.len, ?_, ?_, hi.obj, hi.inj, hi.surj⟩
  · intro c k hk
    obtain ⟨a, b, e⟩ := hi.count c k hk
    refine ⟨a, ?_, e⟩
    have := cnt_set hd c t
    simp at b ⊢; omega
  · intro s hs c hc
    refine hi.val s ?_ c hc
    rcases hs with hs | hs
    · left; exact hs
    · right
      rcases List.mem_append.1 hs with hs | hs
      · rcases mem_set hs with rfl | hs
        · simp
        · simp [hs]
      · rcases List.mem_cons.1 hs with rfl | hs
        · exact List.mem_append_left _ (List.mem_of_getElem? hd)
        · simp [hs]

theorem Inv.assign {t old : Handle} (hi : Inv h own (t :: ts) tw) {d : Nat} (hd : h.strong[d]? = some old) :
    ∃ h', Rc.assign h d t = some h' ∧ Inv h' own ts tw ∧ h'.strong = h.strong.set d t ∧ h'.weak = h.weak := by
  unfold Rc.assign
  rw [hd]
  exact (hi.swap hd).dtor

theorem Inv.wassign {t old : Handle} (hi : Inv h own ts (t :: tw)) {d : Nat} (hd : h.weak[d]? = some old) :
    ∃ h', Rc.wassign h d t = some h' ∧ Inv h' own ts tw ∧ h'.strong = h.strong ∧ h'.weak = h.weak.set d t := by
  unfold Rc.wassign
  rw [hd]
  exact (hi.wswap hd).wdtor

/-- A handle without control block is a harmless temporary. -/
theorem Inv.tmpNull (hi : Inv h own ts tw) (s : Handle) (hc : s.ctl = none) : Inv h own (s :: ts) tw := by
  refine ⟨hi.len, ?_, ?_, hi.obj, hi.inj, hi.surj⟩
  · intro c k hk
    have := hi.count c k hk
    simp [hc] at this ⊢; omega
  · intro s' hs' c' hc'
    rcases hs' with hs' | hs'
    · rcases List.mem_append.1 hs' with h1 | h1
      · exact hi.val s' (.inl (List.mem_append_left _ h1)) c' hc'
      · rcases List.mem_cons.1 h1 with rfl | h1
        · rw [hc] at hc'; cases hc'
        · exact hi.val s' (.inl (List.mem_append_right _ h1)) c' hc'
    · exact hi.val s' (.inr hs') c' hc'

theorem Inv.wtmpNull (hi : Inv h own ts tw) (s : Handle) (hc : s.ctl = none) : Inv h own ts (s :: tw) := by
  refine ⟨hi.len, ?_, ?_, hi.obj, hi.inj, hi.surj⟩
  · intro c k hk
    have := hi.count c k hk
    simp [hc] at this ⊢; omega
  · intro s' hs' c' hc'
    rcases hs' with hs' | hs'
    · exact hi.val s' (.inl hs') c' hc'
    · rcases List.mem_append.1 hs' with h1 | h1
      · exact hi.val s' (.inr (List.mem_append_left _ h1)) c' hc'
      · rcases List.mem_cons.1 h1 with rfl | h1
        · rw [hc] at hc'; cases hc'
        · exact hi.val s' (.inr (List.mem_append_right _ h1)) c' hc'

/-- Moving the contents of a slot to a temporary. -/
theorem Inv.takeOut (hi : Inv h own ts tw) {s : Nat} {hs : Handle} (h1 : h.strong[s]? = some hs) :
    Inv { h with strong := h.strong.set s { hs with ctl := none } } own (hs :: ts) tw :=
  (hi.tmpNull { hs with ctl := none } rfl).swap h1

theorem Inv.wtakeOut (hi : Inv h own ts tw) {s : Nat} {hs : Handle} (h1 : h.weak[s]? = some hs) :
    Inv { h with weak := h.weak.set s { hs with ctl := none } } own ts (hs :: tw) :=
  (hi.wtmpNull { hs with ctl := none } rfl).wswap h1

/-- A new control block, owned by a temporary. -/
theorem Inv.fresh (hi : Inv h own ts tw) (objs' : List Bool) (p : Option Nat)
    (hp : (p = none ∧ objs' = h.objs) ∨ (p = some h.objs.length ∧ objs' = h.objs ++ [false])) :
    Inv { h with objs := objs', ctls := h.ctls ++ [⟨1, 0, true⟩] } (own ++ [p]) (⟨p, some h.ctls.length⟩ :: ts) tw := by
  have hlt : ∀ s : Handle, s ∈ h.strong ++ ts ∨ s ∈ h.weak ++ tw → s.ctl ≠ some h.ctls.length := by
    intro s hs hc
    have := hi.val s hs _ hc
    have := (List.getElem?_eq_some_iff.1 this).1
    rw [hi.len] at this; omega
  have z1 : cnt h.ctls.length (h.strong ++ ts) = 0 := by
    apply Nat.eq_zero_of_not_pos
    intro hpos
    obtain ⟨s, h1, h2⟩ := cnt_pos_iff.1 hpos
    exact hlt s (.inl h1) h2
  have z2 : cnt h.ctls.length (h.weak ++ tw) = 0 := by
    apply Nat.eq_zero_of_not_pos
    intro hpos
    obtain ⟨s, h1, h2⟩ := cnt_pos_iff.1 hpos
    exact hlt s (.inr h1) h2
  have hown : ∀ c o, (own ++ [p])[c]? = some (some o) →
      own[c]? = some (some o) ∨ (c = h.ctls.length ∧ p = some h.objs.length ∧ o = h.objs.length) := by
    intro c o ho
    rw [List.getElem?_append] at ho
    split at ho
    · exact .inl ho
    · rename_i hge
      have : c - own.length = 0 := by
        have := (List.getElem?_eq_some_iff.1 ho).1; simp at this; omega
      rw [this] at ho
      simp at ho
      rcases hp with ⟨rfl, _⟩ | ⟨rfl, _⟩
      · cases ho
      · right
        simp at ho
        refine ⟨by rw [← hi.len]; omega, rfl, ho.symm⟩
  have hrange : ∀ {c o : Nat}, own[c]? = some (some o) → o < h.objs.length := by
    intro c o ho
    obtain ⟨k, _, h2⟩ := hi.obj c o ho
    exact (List.getElem?_eq_some_iff.1 h2).1
  refine ⟨by simp [hi.len], ?_, ?_, ?_, ?_, ?_⟩
  · intro c k hk
    simp only [List.getElem?_append] at hk
    split at hk
    · rename_i hlt'
      have := hi.count c k hk
      have hne : ¬ h.ctls.length = c := by omega
      simp [hne] at this ⊢; omega
    · have h0 : c - h.ctls.length = 0 := by
        have := (List.getElem?_eq_some_iff.1 hk).1; simp at this; omega
      rw [h0] at hk
      simp at hk; subst hk
      have : c = h.ctls.length := by omega
      subst this
      simp at z1 z2 ⊢; omega
  · intro s hs c hc
    have old : (s ∈ h.strong ++ ts ∨ s ∈ h.weak ++ tw) → (own ++ [p])[c]? = some s.obj := by
      intro hs'
      have := hi.val s hs' c hc
      rw [List.getElem?_append_left (List.getElem?_eq_some_iff.1 this).1]
      exact this
    rcases hs with hs | hs
    · rcases List.mem_append.1 hs with h1 | h1
      · exact old (.inl (List.mem_append_left _ h1))
      · rcases List.mem_cons.1 h1 with rfl | h1
        · simp at hc; subst hc
          rw [← hi.len]; simp
        · exact old (.inl (List.mem_append_right _ h1))
    · exact old (.inr hs)
  · intro c o ho
    rcases hown c o ho with ho | ⟨rfl, h2, rfl⟩
    · obtain ⟨k, g1, g2⟩ := hi.obj c o ho
      refine ⟨k, ?_, ?_⟩
      · simp only
        rw [List.getElem?_append_left (List.getElem?_eq_some_iff.1 g1).1]; exact g1
      · simp only
        rcases hp with ⟨_, rfl⟩ | ⟨_, rfl⟩
        · exact g2
        · rw [List.getElem?_append_left (List.getElem?_eq_some_iff.1 g2).1]; exact g2
    · rcases hp with ⟨rfl, _⟩ | ⟨_, rfl⟩
      · cases h2
      · exact ⟨⟨1, 0, true⟩, by simp, by simp⟩
  · intro c c' o h1 h2
    rcases hown c o h1 with h1' | ⟨rfl, _, rfl⟩
    · rcases hown c' o h2 with h2' | ⟨rfl, _, rfl⟩
      · exact hi.inj c c' o h1' h2'
      · have := hrange h1'; omega
    · rcases hown c' _ h2 with h2' | ⟨rfl, _, _⟩
      · have := hrange h2'; omega
      · rfl
  · intro o ho
    simp only at ho
    have old : o < h.objs.length → ∃ c : Nat, (own ++ [p])[c]? = some (some o) := by
      intro hlt'
      obtain ⟨c, hc⟩ := hi.surj o hlt'
      exact ⟨c, by rw [List.getElem?_append_left (List.getElem?_eq_some_iff.1 hc).1]; exact hc⟩
    rcases hp with ⟨_, rfl⟩ | ⟨rfl, rfl⟩
    · exact old ho
    · simp at ho
      by_cases hlt' : o < h.objs.length
      · exact old hlt'
      · have : o = h.objs.length := by omega
        subst this
        exact ⟨own.length, by simp⟩

theorem inv_init (n m : Nat) : Inv (Heap.init n m) [] [] [] := by
  refine ⟨rfl, ?_, ?_, ?_, ?_, ?_⟩
  · intro c k hk; simp [Heap.init] at hk
  · intro s hs c hc
    simp [Heap.init, Handle.null] at hs
    rcases hs with ⟨_, rfl⟩ | ⟨_, rfl⟩ <;> cases hc
  · intro c o h; simp at h
  · intro c c' o h; simp at h
  · intro o h; simp [Heap.init] at h

theorem inv_step (hi : Inv h own [] []) (op : Op) : ∃ h' own', step h op = some h' ∧ Inv h' own' [] [] ∧
    h'.strong.length = h.strong.length ∧ h'.weak.length = h.weak.length := by
  have stay : ∃ h' own', some h = some h' ∧ Inv h' own' [] [] ∧
    h'.strong.length = h.strong.length ∧ h'.weak.length = h.weak.length := ⟨h, own, rfl, hi, rfl, rfl⟩
  cases op with
  | create d =>
    simp only [step]
    rcases hd : h.strong[d]? with _ | old
    · exact stay
    · obtain ⟨h', h1, h2, h3, h4⟩ := (hi.fresh _ _ (.inr ⟨rfl, rfl⟩)).assign (d := d) hd
      exact ⟨h', _, h1, h2, by rw [h3]; simp, by rw [h4]⟩
  | createNull d =>
    simp only [step]
    rcases hd : h.strong[d]? with _ | old
    · exact stay
    · obtain ⟨h', h1, h2, h3, h4⟩ := (hi.fresh _ _ (.inl ⟨rfl, rfl⟩)).assign (d := d) hd
      exact ⟨h', _, h1, h2, by rw [h3]; simp, by rw [h4]⟩
  | copy d s =>
    simp only [step]
    split
    · exact stay
    · split
      · rename_i hs old e1 e2
        obtain ⟨h1, g1, g2, g3, g4, _⟩ := hi.copyRef (List.mem_of_getElem? e1)
        obtain ⟨h2, g5, g6, g7, g8⟩ := g2.assign (d := d) (old := old) (by rw [g3]; exact e2)
        exact ⟨h2, own, by rw [g1]; exact g5, g6, by rw [g7]; simp [g3], by rw [g8, g4]⟩
      · exact stay
  | move d s =>
    simp only [step]
    split
    · exact stay
    · rename_i hne
      split
      · rename_i hs old e1 e2
        obtain ⟨h2, g5, g6, g7, g8⟩ := (hi.takeOut e1).assign (d := d) (old := old)
          (by simp only [List.getElem?_set]; rw [if_neg (fun h => hne h.symm)]; exact e2)
        exact ⟨h2, own, g5, g6, by rw [g7]; simp, by rw [g8]⟩
      · exact stay
  | castMove d s =>
    simp only [step]
    split
    · rename_i hs old e1 e2
      have : ∃ old', (h.strong.set s { hs with ctl := none })[d]? = some old' := by
        have := (List.getElem?_eq_some_iff.1 e2).1
        exact ⟨_, List.getElem?_eq_getElem (by simpa using this)⟩
      obtain ⟨old', ho⟩ := this
      obtain ⟨h2, g5, g6, g7, g8⟩ := (hi.takeOut e1).assign (d := d) (old := old') ho
      exact ⟨h2, own, g5, g6, by rw [g7]; simp, by rw [g8]⟩
    · exact stay
  | drop d =>
    simp only [step]
    rcases hd : h.strong[d]? with _ | old
    · simp only [assign, hd]; exact stay
    · obtain ⟨h', h1, h2, h3, h4⟩ := (hi.tmpNull .null rfl).assign hd
      exact ⟨h', own, h1, h2, by rw [h3]; simp, by rw [h4]⟩
  | weakOf w s =>
    simp only [step]
    split
    · rename_i hs old e1 e2
      obtain ⟨h1, g1, g2, g3, g4, _⟩ := hi.copyWeak (.inl (List.mem_of_getElem? e1))
      obtain ⟨h2, g5, g6, g7, g8⟩ := g2.wassign (d := w) (old := old) (by rw [g4]; exact e2)
      exact ⟨h2, own, by rw [g1]; exact g5, g6, by rw [g7, g3], by rw [g8]; simp [g4]⟩
    · exact stay
  | weakCopy w v =>
    simp only [step]
    split
    · exact stay
    · split
      · rename_i hs old e1 e2
        obtain ⟨h1, g1, g2, g3, g4, _⟩ := hi.copyWeak (.inr (List.mem_of_getElem? e1))
        obtain ⟨h2, g5, g6, g7, g8⟩ := g2.wassign (d := w) (old := old) (by rw [g4]; exact e2)
        exact ⟨h2, own, by rw [g1]; exact g5, g6, by rw [g7, g3], by rw [g8]; simp [g4]⟩
      · exact stay
  | weakMove w v =>
    simp only [step]
    split
    · exact stay
    · rename_i hne
      split
      · rename_i hs old e1 e2
        obtain ⟨h2, g5, g6, g7, g8⟩ := (hi.wtakeOut e1).wassign (d := w) (old := old)
          (by simp only [List.getElem?_set]; rw [if_neg (fun h => hne h.symm)]; exact e2)
        exact ⟨h2, own, g5, g6, by rw [g7], by rw [g8]; simp⟩
      · exact stay
  | weakDrop w =>
    simp only [step]
    rcases hd : h.weak[w]? with _ | old
    · simp only [wassign, hd]; exact stay
    · obtain ⟨h', h1, h2, h3, h4⟩ := (hi.wtmpNull .null rfl).wassign hd
      exact ⟨h', own, h1, h2, by rw [h3], by rw [h4]; simp⟩
  | upgrade d w =>
    simp only [step]
    split
    · rename_i hw old e1 e2
      have null : ∃ h' own', assign h d .null = some h' ∧ Inv h' own' [] [] ∧
          h'.strong.length = h.strong.length ∧ h'.weak.length = h.weak.length := by
        obtain ⟨h', h1, h2, h3, h4⟩ := (hi.tmpNull .null rfl).assign e2
        exact ⟨h', own, h1, h2, by rw [h3]; simp, by rw [h4]⟩
      rcases hc : hw.ctl with _ | c
      · exact null
      · obtain ⟨k, h1, h2, h3⟩ := hi.ctl (s := hw) (.inr (List.mem_append_left _ (List.mem_of_getElem? e1))) hc
        simp only [h2]
        split
        · rename_i hr
          obtain ⟨h1', g1, g2, g3, g4, _⟩ := hi.addRef (s := hw) h3 hc h1 hr
          obtain ⟨h2', g5, g6, g7, g8⟩ := g2.assign (d := d) (old := old) (by rw [g3]; exact e2)
          exact ⟨h2', own, by rw [g1]; exact g5, g6, by rw [g7]; simp [g3], by rw [g8, g4]⟩
        · exact null
    · exact stay

theorem inv_run : ∀ {ops : List Op} {h : Heap} {own}, Inv h own [] [] →
    ∃ h' own', run h ops = some h' ∧ Inv h' own' [] [] ∧
      h'.strong.length = h.strong.length ∧ h'.weak.length = h.weak.length := by
  intro ops
  induction ops with
  | nil => intro h own hi; exact ⟨h, own, rfl, hi, rfl, rfl⟩
  | cons op ops ih =>
    intro h own hi
    obtain ⟨h1, own1, g1, g2, g3, g4⟩ := inv_step hi op
    obtain ⟨h2, own2, g5, g6, g7, g8⟩ := ih g2
    exact ⟨h2, own2, by simp [run, g1, g5], g6, by omega, by omega⟩

end Rc

theorem Box.countP_set {l : List (Option Nat)} {d : Nat} {old : Option Nat} (h : l[d]? = some old) (o : Nat)
    (t : Option Nat) :
    (l.set d t).countP (fun p => p = some o) + (if old = some o then 1 else 0) =
      l.countP (fun p => p = some o) + (if t = some o then 1 else 0) := by
  induction l generalizing d with
  | nil => simp at h
  | cons a l ih =>
    cases d with
    | zero => simp at h; subst h; simp [List.countP_cons]; omega
    | succ d => simp at h; have := ih h; simp [List.countP_cons]; omega

end Salticidae

/-! ### Programs that do not move strong handles -/
namespace Salticidae
namespace Rc

theorem releaseRef_strong {h h' : Heap} {c : Nat} {b : Bool} (e : releaseRef h c = some (h', b)) : h'.strong = h.strong := by
  unfold releaseRef at e
  split at e
  · cases e
  · split at e
    · cases e
    · simp only at e
      split at e
      · cases e; rfl
      · split at e <;> cases e <;> rfl

theorem dtor_strong {h h' : Heap} {s : Handle} (e : dtor h s = some h') : h'.strong = h.strong := by
  unfold dtor at e
  split at e
  · cases e; rfl
  · split at e
    · cases e
    · rename_i h1 hr
      have := releaseRef_strong hr
      unfold destroy at e
      split at e
      · cases e; exact this
      · split at e
        · cases e; exact this
        · cases e
    · rename_i h1 hr
      cases e; exact releaseRef_strong hr

theorem wdtor_strong {h h' : Heap} {s : Handle} (e : wdtor h s = some h') : h'.strong = h.strong := by
  unfold wdtor releaseWeak at e
  split at e
  · cases e; rfl
  · split at e
    · cases e
    · split at e
      · cases e
      · simp only at e
        split at e
        · cases e; rfl
        · split at e <;> cases e <;> rfl

theorem assign_strong {h h' : Heap} {d : Nat} {t : Handle} (e : assign h d t = some h') : h'.strong = h.strong.set d t := by
  unfold assign at e
  split at e
  · cases e
    rename_i hn
    rw [List.set_eq_of_length_le (by simpa using hn)]
  · exact dtor_strong e

theorem wassign_strong {h h' : Heap} {d : Nat} {t : Handle} (e : wassign h d t = some h') : h'.strong = h.strong := by
  unfold wassign at e
  split at e
  · cases e; rfl
  · have := wdtor_strong e; exact this

theorem copyRef_strong {h h' : Heap} {s : Handle} (e : copyRef h s = some h') : h'.strong = h.strong := by
  unfold copyRef addRef at e
  split at e
  · cases e; rfl
  · rw [Option.map_eq_some_iff] at e
    obtain ⟨k, _, rfl⟩ := e; rfl

theorem copyWeak_strong {h h' : Heap} {s : Handle} (e : copyWeak h s = some h') : h'.strong = h.strong := by
  unfold copyWeak addWeak at e
  split at e
  · cases e; rfl
  · rw [Option.map_eq_some_iff] at e
    obtain ⟨k, _, rfl⟩ := e; rfl

def isMove : Op → Bool
  | .move _ _ => true
  | .castMove _ _ => true
  | _ => false

def NoHusk (h : Heap) : Prop := ∀ s ∈ h.strong, s.ctl = none → s.obj = none

theorem noHusk_set {h h' : Heap} {d : Nat} {t : Handle} (hn : NoHusk h) (e : h'.strong = h.strong.set d t)
    (ht : t.ctl = none → t.obj = none) : NoHusk h' := by
  intro s hs
  rw [e] at hs
  rcases List.mem_or_eq_of_mem_set hs with hs | rfl
  · exact hn s hs
  · exact ht

theorem noHusk_step {h h' : Heap} {op : Op} (hm : isMove op = false) (hn : NoHusk h) (e : step h op = some h') : NoHusk h' := by
  cases op with
  | create d =>
    simp only [step] at e
    split at e
    · cases e; exact hn
    · have := assign_strong e
      exact noHusk_set hn this (by simp)
  | createNull d =>
    simp only [step] at e
    split at e
    · cases e; exact hn
    · have := assign_strong e
      exact noHusk_set hn this (by simp)
  | copy d s =>
    simp only [step] at e
    split at e
    · cases e; exact hn
    · split at e
      · rename_i hs _ h1 h2
        rcases e1 : copyRef h hs with _ | h1'
        · rw [e1] at e; cases e
        · rw [e1] at e
          have e : assign h1' d hs = some h' := e
          have := assign_strong e
          rw [copyRef_strong e1] at this
          exact noHusk_set hn this (hn hs (List.mem_of_getElem? h1))
      · cases e; exact hn
  | move d s => cases hm
  | castMove d s => cases hm
  | drop d => exact noHusk_set hn (assign_strong e) (fun _ => rfl)
  | weakOf w s =>
    simp only [step] at e
    split at e
    · rename_i hs _ h1 h2
      rcases e1 : copyWeak h hs with _ | h1'
      · rw [e1] at e; cases e
      · rw [e1] at e
        have e : wassign h1' w hs = some h' := e
        have := wassign_strong e
        rw [copyWeak_strong e1] at this
        intro s; rw [this]; exact hn s
    · cases e; exact hn
  | weakCopy w v =>
    simp only [step] at e
    split at e
    · cases e; exact hn
    · split at e
      · rename_i hs _ h1 h2
        rcases e1 : copyWeak h hs with _ | h1'
        · rw [e1] at e; cases e
        · rw [e1] at e
          have e : wassign h1' w hs = some h' := e
          have := wassign_strong e
          rw [copyWeak_strong e1] at this
          intro s; rw [this]; exact hn s
      · cases e; exact hn
  | weakMove w v =>
    simp only [step] at e
    split at e
    · cases e; exact hn
    · split at e
      · have := wassign_strong e
        intro s; rw [this]; exact hn s
      · cases e; exact hn
  | weakDrop w =>
    have := wassign_strong e
    intro s; rw [this]; exact hn s
  | upgrade d w =>
    simp only [step] at e
    split at e
    · rename_i hw _ h1 h2
      split at e
      · exact noHusk_set hn (assign_strong e) (fun _ => rfl)
      · rename_i c hc
        split at e
        · cases e
        · split at e
          · rcases e1 : addRef h c with _ | h1'
            · rw [e1] at e; cases e
            · rw [e1] at e
              have e : assign h1' d hw = some h' := e
              have := assign_strong e
              have e2 : h1'.strong = h.strong := by
                unfold addRef at e1
                rw [Option.map_eq_some_iff] at e1
                obtain ⟨k, _, rfl⟩ := e1; rfl
              rw [e2] at this
              exact noHusk_set hn this (by intro hx; rw [hc] at hx; cases hx)
          · exact noHusk_set hn (assign_strong e) (fun _ => rfl)
    · cases e; exact hn

theorem noHusk_run : ∀ {ops : List Op} {h h' : Heap}, (∀ op ∈ ops, isMove op = false) → NoHusk h → run h ops = some h' → NoHusk h' := by
  intro ops
  induction ops with
  | nil => intro h h' _ hn e; cases e; exact hn
  | cons op ops ih =>
    intro h h' hm hn e
    simp only [run] at e
    rcases e1 : step h op with _ | h1
    · rw [e1] at e; cases e
    · rw [e1] at e
      exact ih (fun o ho => hm o (List.mem_cons_of_mem _ ho)) (noHusk_step (hm op (by simp)) hn e1) e

end Rc
end Salticidae
