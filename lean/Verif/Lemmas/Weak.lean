import Verif.Model.Weak
namespace Salticidae
namespace Weak

variable {L : Type} [DecidableEq L]

theorem View.get_raise (v : View L) (l k : L) (t : Nat) :
    (v.raise l t).get k = if l = k then max (v.get k) t else v.get k := by
  induction v with
  | nil => simp [View.raise, View.get]
  | cons p v ih => obtain ⟨a, b⟩ := p; simp only [View.raise]; split <;> simp only [View.get] <;> grind

theorem View.get_join (a b : View L) (k : L) : (a.join b).get k = max (a.get k) (b.get k) := by
  induction b generalizing a with
  | nil => simp [View.join, View.get]
  | cons p b ih =>
    obtain ⟨l, t⟩ := p
    have : a.join ((l, t) :: b) = (a.raise l t).join b := rfl
    rw [this, ih, View.get_raise]
    simp only [View.get]
    grind

/-- What happened before `a` happened before `b`. -/
def View.le (a b : View L) : Prop := ∀ l, a.get l ≤ b.get l

theorem View.le_refl (a : View L) : a.le a := fun _ => Nat.le_refl _
theorem View.le_trans {a b c : View L} (h : a.le b) (k : b.le c) : a.le c := fun l => Nat.le_trans (h l) (k l)
theorem View.le_raise (v : View L) (l : L) (t : Nat) : v.le (v.raise l t) := fun k => by rw [View.get_raise]; split <;> omega
theorem View.le_join_left (a b : View L) : a.le (a.join b) := fun k => by rw [View.get_join]; omega
theorem View.le_join_right (a b : View L) : b.le (a.join b) := fun k => by rw [View.get_join]; omega

variable (ini : L → Nat)

theorem look_cons (x : Msg L) (m : Mem L) (l : L) (t : Nat) :
    look ini (x :: m) l t = if x.loc = l ∧ x.ts = t then some x else look ini m l t := by
  unfold look
  rw [List.find?_cons]
  by_cases h : x.loc = l ∧ x.ts = t <;> simp [h]

theorem look_eq {ini : L → Nat} {m : Mem L} {l : L} {t : Nat} {x : Msg L} (h : look ini m l t = some x) : x.loc = l ∧ x.ts = t := by
  induction m with
  | nil => simp [look] at h; grind
  | cons y m ih => rw [look_cons] at h; split at h <;> grind

theorem look_le {ini : L → Nat} {m : Mem L} {l : L} {t : Nat} {x : Msg L} (h : look ini m l t = some x) : t ≤ last m l := by
  induction m with
  | nil => simp [look] at h; omega
  | cons y m ih => rw [look_cons] at h; simp only [last]; split at h <;> grind

theorem look_zero (m : Mem L) (l : L) : look ini m l 0 ≠ none := by
  unfold look; split <;> simp

theorem look_last (m : Mem L) (l : L) : ∃ x, look ini m l (last m l) = some x := by
  induction m with
  | nil => simp [look, last]
  | cons y m ih => simp only [look_cons, last]; grind

/-- Nothing was written to `l`. -/
theorem look_ini {ini : L → Nat} {m : Mem L} {l : L} {t : Nat} {x : Msg L} (hm : ∀ y ∈ m, y.loc ≠ l) (h : look ini m l t = some x) : x.val = ini l := by
  induction m with
  | nil => simp [look] at h; grind
  | cons y m ih => rw [look_cons] at h; grind

/-- The modification order of `l` has no gaps. -/
def Cont (m : Mem L) (l : L) : Prop := ∀ t, t ≤ last m l → look ini m l t ≠ none

theorem cont_nil (l : L) : Cont ini [] l := by
  intro t ht; simp only [last] at ht; have : t = 0 := by omega
  subst this; exact look_zero _ _ _

theorem cont_cons {m : Mem L} {l : L} {x : Msg L} (h : Cont ini m l) (hx : x.loc = l → x.ts = last m l + 1) : Cont ini (x :: m) l := by
  intro t ht
  rw [look_cons]
  simp only [last] at ht
  by_cases hl : x.loc = l
  · have := hx hl
    rw [if_pos hl] at ht
    by_cases h2 : x.ts = t
    · simp [hl, h2]
    · simp [h2]; exact h t (by omega)
  · rw [if_neg hl] at ht
    simp [hl]; exact h t ht

theorem load_some {ini : L → Nat} {m : Mem L} {v : View L} {o : Order} {l : L} {t : Nat} {r : Nat × View L} (h : load ini m v o l t = some r) :
    ∃ x, look ini m l t = some x ∧ r.1 = x.val ∧ v.get l ≤ t ∧ v.le r.2 ∧ t ≤ r.2.get l ∧ (o.acquires = true → x.view.le r.2) := by
  simp only [load] at h
  split at h
  · split at h
    · rename_i x hx hv
      refine ⟨x, hx, ?_⟩
      cases h
      refine ⟨rfl, hv, ?_, ?_, ?_⟩
      · intro k; dsimp only; split <;> simp only [View.get_join, View.get_raise] <;> split <;> omega
      · dsimp only; split <;> simp only [View.get_join, View.get_raise, if_true] <;> omega
      · intro ho; simp only [ho, if_true]; exact View.le_join_right _ _
    · cases h
  · cases h

theorem store_some {ini : L → Nat} {m : Mem L} {v : View L} {o : Order} {l : L} {t x : Nat} {r : Mem L × View L} (h : store ini m v o l t x = some r) :
    ∃ y, r.1 = y :: m ∧ y.loc = l ∧ y.ts = t ∧ y.val = x ∧ v.get l < t ∧ look ini m l t = none ∧ v.le r.2 ∧ t ≤ r.2.get l ∧ (o.releases = true → r.2.le y.view) := by
  simp only [store] at h
  split at h
  · rename_i hc
    cases h
    refine ⟨_, rfl, rfl, rfl, rfl, hc.1, hc.2, View.le_raise _ _ _, ?_, ?_⟩
    · simp [View.get_raise]; omega
    · intro ho; simp only [ho, if_true]; exact View.le_refl _
  · cases h

theorem rmw_some {ini : L → Nat} {m : Mem L} {v : View L} {o : Order} {l : L} {t : Nat} {f : Nat → Nat} {r : Nat × Mem L × View L} (h : rmw ini m v o l t f = some r) :
    ∃ x y, look ini m l t = some x ∧ r.1 = x.val ∧ r.2.1 = y :: m ∧ y.loc = l ∧ y.ts = t + 1 ∧ y.val = f x.val ∧ look ini m l (t + 1) = none ∧
      v.le r.2.2 ∧ t + 1 ≤ r.2.2.get l ∧ (o.acquires = true → x.view.le r.2.2) ∧ x.view.le y.view ∧ (o.releases = true → r.2.2.le y.view) := by
  simp only [rmw] at h
  split at h
  · split at h
    · rename_i x hx hv
      cases h
      refine ⟨x, _, hx, rfl, rfl, rfl, rfl, rfl, hv.2, ?_, ?_, ?_, View.le_join_right _ _, ?_⟩
      · intro k; dsimp only; split <;> simp only [View.get_join, View.get_raise] <;> split <;> omega
      · dsimp only; split <;> simp only [View.get_join, View.get_raise, if_true] <;> omega
      · intro ho; simp only [ho, if_true]; exact View.le_join_right _ _
      · intro ho; simp only [ho, if_true]; exact View.le_join_left _ _
    · cases h
  · cases h

/-- A read-modify-write reads the last value if there are no gaps. -/
theorem cont_last {ini : L → Nat} {m : Mem L} {l : L} {t : Nat} {x : Msg L} (h : Cont ini m l) (hx : look ini m l t = some x)
    (hn : look ini m l (t + 1) = none) : t = last m l := by
  have := look_le hx
  apply Classical.byContradiction
  intro hne
  exact h (t + 1) (by omega) hn

end Weak
end Salticidae
