import Verif.Model.Ieee
import Verif.Spec.Ieee
import Mathlib.Algebra.Order.Field.Power
import Mathlib.Tactic.Linarith
import Mathlib.Tactic.NormNum
import Mathlib.Tactic.FieldSimp
import Mathlib.Tactic.Positivity
import Mathlib.Tactic.Ring
/-!
Facts about rounding.
-/
namespace Salticidae
namespace Ieee
open Spec.Ieee

theorem floor_le' (x : Rat) : (x.floor : Rat) ≤ x := Int.floor_le x
theorem lt_floor' (x : Rat) : x < (x.floor : Rat) + 1 := Int.lt_floor_add_one x

theorem rne_err (x : Rat) : |(rne x : Rat) - x| ≤ 1 / 2 := by
  have h1 := floor_le' x
  have h2 := lt_floor' x
  simp only [rne]
  rw [abs_le]
  split_ifs <;> push_cast <;> constructor <;> linarith

theorem rne_int (n : Int) : rne n = n := by
  have : ((n : Rat)).floor = n := Rat.floor_intCast n
  simp [rne, this]

/-- What is nearer than a half is the nearest. -/
theorem rne_eq {x : Rat} {n : Int} (h : |x - n| < 1 / 2) : rne x = n := by
  have h1 := rne_err x
  rw [abs_lt] at h
  rw [abs_le] at h1
  have h2 : (rne x : Rat) < n + 1 := by linarith [h1.2, h.2]
  have h3 : (n : Rat) < rne x + 1 := by linarith [h1.1, h.1]
  have h4 : rne x < n + 1 := by exact_mod_cast h2
  have h5 : n < rne x + 1 := by exact_mod_cast h3
  omega

theorem rne_mono {x y : Rat} (h : x ≤ y) : rne x ≤ rne y := by
  by_contra hn
  have hn : rne y + 1 ≤ rne x := by omega
  have hn' : (rne y : Rat) + 1 ≤ rne x := by exact_mod_cast hn
  have h1 := abs_le.mp (rne_err x)
  have h2 := abs_le.mp (rne_err y)
  have h3 : x = y := by linarith [h1.2, h2.1]
  subst h3
  omega

theorem rne_ge {x : Rat} {n : Int} (h : (n : Rat) ≤ x) : n ≤ rne x := by
  have := rne_mono h; rwa [rne_int] at this

theorem rne_le {x : Rat} {n : Int} (h : x ≤ n) : rne x ≤ n := by
  have := rne_mono h; rwa [rne_int] at this

theorem rne_near (x : Rat) (n : Int) : |x - rne x| ≤ |x - n| := by
  by_cases h : |x - n| < 1 / 2
  · rw [rne_eq h]
  · rw [abs_sub_comm]; exact (rne_err x).trans (not_lt.mp h)

theorem ulp_pos (p : Nat) (x : Rat) : 0 < ulp p x := by unfold ulp; positivity

theorem log_le {x : Rat} (h : 0 < x) : (2 : Rat) ^ Int.log 2 x ≤ x := by
  have := Int.zpow_log_le_self (b := 2) (r := x) (by norm_num) h
  exact_mod_cast this

theorem lt_log (x : Rat) : x < (2 : Rat) ^ (Int.log 2 x + 1) := by
  have := Int.lt_zpow_succ_log_self (b := 2) (by norm_num) x
  exact_mod_cast this

theorem zpow_lt_iff {a b : Int} : (2 : Rat) ^ a < (2 : Rat) ^ b ↔ a < b := zpow_lt_zpow_iff_right₀ (by norm_num)
theorem zpow_le_iff {a b : Int} : (2 : Rat) ^ a ≤ (2 : Rat) ^ b ↔ a ≤ b := zpow_le_zpow_iff_right₀ (by norm_num)

theorem log_eq {x : Rat} {e : Int} (h1 : (2 : Rat) ^ e ≤ x) (h2 : x < (2 : Rat) ^ (e + 1)) : Int.log 2 x = e := by
  have h0 : 0 < x := lt_of_lt_of_le (by positivity) h1
  have h3 := zpow_lt_iff.mp (lt_of_le_of_lt h1 (lt_log x))
  have h4 := zpow_lt_iff.mp (lt_of_le_of_lt (log_le h0) h2)
  omega

theorem log_mono {x y : Rat} (h0 : 0 < x) (h : x ≤ y) : Int.log 2 x ≤ Int.log 2 y := by
  have := zpow_lt_iff.mp (lt_of_le_of_lt ((log_le h0).trans h) (lt_log y))
  omega

/-- x in units of its last place: between 2^(p-1) and 2^p. -/
theorem scaled {p : Nat} (hp : 0 < p) {x : Rat} (h : 0 < x) : ((2 ^ (p - 1) : Int) : Rat) ≤ x / ulp p x ∧ x / ulp p x < ((2 ^ p : Int) : Rat) := by
  have hu := ulp_pos p x
  constructor
  · rw [le_div_iff₀ hu]
    refine le_trans (le_of_eq ?_) (log_le h)
    have : ((2 ^ (p - 1) : Int) : Rat) = (2 : Rat) ^ ((p : Int) - 1) := by
      rw [show (p : Int) - 1 = ((p - 1 : Nat) : Int) by omega, zpow_natCast]; push_cast; rfl
    rw [this, ulp, ← zpow_add₀ (by norm_num)]
    congr 1; ring
  · rw [div_lt_iff₀ hu]
    refine lt_of_lt_of_eq (lt_log x) ?_
    have : ((2 ^ p : Int) : Rat) = (2 : Rat) ^ (p : Int) := by rw [zpow_natCast]; push_cast; rfl
    rw [this, ulp, ← zpow_add₀ (by norm_num)]
    congr 1; ring

theorem fl_pos {p : Nat} {x : Rat} (h : 0 < x) : fl p x = rne (x / ulp p x) * ulp p x := by simp [fl, h]

theorem fl_zero (p : Nat) : fl p 0 = 0 := by simp [fl]

theorem fl_neg (p : Nat) (x : Rat) : fl p (-x) = -fl p x := by
  rcases lt_trichotomy x 0 with h | h | h
  · have h1 : 0 < -x := by linarith
    have h2 : ¬ 0 < x := by linarith
    simp [fl, h1, h, h2]
  · subst h; simp [fl]
  · have h1 : ¬ x < 0 := by linarith
    have h2 : ¬ 0 < -x := by linarith
    simp [fl, h1, h, h2]

/-- Bounds of a rounded number: it stays in its binade (or becomes the next power of two). -/
theorem fl_binade {p : Nat} (hp : 0 < p) {x : Rat} (h : 0 < x) : (2 : Rat) ^ Int.log 2 x ≤ fl p x ∧ fl p x ≤ (2 : Rat) ^ (Int.log 2 x + 1) := by
  have hs := scaled hp h
  have hu := ulp_pos p x
  rw [fl_pos h]
  constructor
  · have h1 : (2 ^ (p - 1) : Int) ≤ rne (x / ulp p x) := rne_ge hs.1
    have h2 : ((2 ^ (p - 1) : Int) : Rat) ≤ rne (x / ulp p x) := by exact_mod_cast h1
    refine le_trans (le_of_eq ?_) (mul_le_mul_of_nonneg_right h2 hu.le)
    have : ((2 ^ (p - 1) : Int) : Rat) = (2 : Rat) ^ ((p : Int) - 1) := by
      rw [show (p : Int) - 1 = ((p - 1 : Nat) : Int) by omega, zpow_natCast]; push_cast; rfl
    rw [this, ulp, ← zpow_add₀ (by norm_num)]
    congr 1; ring
  · have h1 : rne (x / ulp p x) ≤ (2 ^ p : Int) := rne_le hs.2.le
    have h2 : (rne (x / ulp p x) : Rat) ≤ ((2 ^ p : Int) : Rat) := by exact_mod_cast h1
    refine le_trans (mul_le_mul_of_nonneg_right h2 hu.le) (le_of_eq ?_)
    have : ((2 ^ p : Int) : Rat) = (2 : Rat) ^ (p : Int) := by rw [zpow_natCast]; push_cast; rfl
    rw [this, ulp, ← zpow_add₀ (by norm_num)]
    congr 1; ring

theorem fl_nonneg {p : Nat} (hp : 0 < p) {x : Rat} (h : 0 ≤ x) : 0 ≤ fl p x := by
  rcases h.eq_or_lt with h | h
  · rw [← h, fl_zero]
  · exact le_trans (by positivity) (fl_binade hp h).1

theorem fl_mono_pos {p : Nat} (hp : 0 < p) {x y : Rat} (h0 : 0 < x) (h : x ≤ y) : fl p x ≤ fl p y := by
  have hy : 0 < y := by linarith
  by_cases e : Int.log 2 x = Int.log 2 y
  · have hu : ulp p x = ulp p y := by simp [ulp, e]
    rw [fl_pos h0, fl_pos hy, hu]
    have h1 : rne (x / ulp p y) ≤ rne (y / ulp p y) := rne_mono (div_le_div_of_nonneg_right h (ulp_pos p y).le)
    have h2 : (rne (x / ulp p y) : Rat) ≤ rne (y / ulp p y) := by exact_mod_cast h1
    exact mul_le_mul_of_nonneg_right h2 (ulp_pos p y).le
  · have := log_mono h0 h
    exact (fl_binade hp h0).2.trans (le_trans (zpow_le_iff.mpr (by omega)) (fl_binade hp hy).1)

/-- Rounding is monotone. -/
theorem fl_mono {p : Nat} (hp : 0 < p) {x y : Rat} (h : x ≤ y) : fl p x ≤ fl p y := by
  by_cases hx : 0 < x
  · exact fl_mono_pos hp hx h
  · by_cases hy : 0 ≤ y
    · have h1 : fl p x ≤ 0 := by
        have := fl_nonneg hp (x := -x) (by linarith)
        rw [fl_neg] at this; linarith
      exact h1.trans (fl_nonneg hp hy)
    · have h1 := fl_mono_pos hp (x := -y) (y := -x) (by linarith) (by linarith)
      rw [fl_neg, fl_neg] at h1; linarith

/-- The error of rounding. -/
theorem fl_err {p : Nat} (x : Rat) : |fl p x - x| ≤ |x| / 2 ^ p := by
  have key : ∀ x : Rat, 0 < x → |fl p x - x| ≤ |x| / 2 ^ p := by
    intro x h
    have hu := ulp_pos p x
    rw [fl_pos h, abs_of_pos h]
    have h1 : (rne (x / ulp p x) : Rat) * ulp p x - x = (rne (x / ulp p x) - x / ulp p x) * ulp p x := by
      field_simp
    rw [h1, abs_mul, abs_of_pos hu]
    have h2 := mul_le_mul_of_nonneg_right (rne_err (x / ulp p x)) hu.le
    refine h2.trans ?_
    rw [le_div_iff₀ (by positivity)]
    refine le_trans (le_of_eq ?_) (log_le h)
    rw [ulp, show Int.log 2 x - (p : Int) + 1 = Int.log 2 x + (-(p : Int)) + 1 by ring, zpow_add₀ (by norm_num), zpow_add₀ (by norm_num), zpow_neg, zpow_natCast]
    field_simp
  rcases lt_trichotomy x 0 with h | h | h
  · have := key (-x) (by linarith)
    rw [fl_neg, abs_neg] at this
    rwa [show fl p x - x = -(-fl p x - -x) by ring, abs_neg]
  · subst h; simp [fl_zero]
  · exact key x h

theorem rep_neg {p : Nat} {x : Rat} (h : Rep p x) : Rep p (-x) := by
  obtain ⟨m, k, h1, h2⟩ := h
  exact ⟨-m, k, by rwa [abs_neg], by rw [h2]; push_cast; ring⟩

/-- A number with p digits, not below the binade of x, is a multiple of the last place of x. -/
theorem rep_mult {p : Nat} {x z : Rat} (hz : Rep p z) (h : (2 : Rat) ^ Int.log 2 x ≤ z) : ∃ n : Int, z = n * ulp p x := by
  obtain ⟨m, k, h1, h2⟩ := hz
  have h3 : (2 : Rat) ^ Int.log 2 x < (2 : Rat) ^ ((p : Int) + k) := by
    refine lt_of_le_of_lt h ?_
    rw [h2, zpow_add₀ (by norm_num), zpow_natCast]
    refine mul_lt_mul_of_pos_right ?_ (by positivity)
    have : m < 2 ^ p := lt_of_le_of_lt (le_abs_self m) h1
    exact_mod_cast this
  have h4 := zpow_lt_iff.mp h3
  obtain ⟨j, hj⟩ := Int.eq_ofNat_of_zero_le (a := k - (Int.log 2 x - p + 1)) (by omega)
  refine ⟨m * 2 ^ j, ?_⟩
  rw [h2, ulp, show k = (j : Int) + (Int.log 2 x - p + 1) by omega, zpow_add₀ (by norm_num), zpow_natCast]
  push_cast; ring

/-- Numbers with p digits are not changed. -/
theorem fl_rep {p : Nat} {x : Rat} (h : Rep p x) : fl p x = x := by
  have key : ∀ x : Rat, 0 < x → Rep p x → fl p x = x := by
    intro x h0 h
    obtain ⟨n, hn⟩ := rep_mult h (log_le h0)
    have hu := ulp_pos p x
    rw [fl_pos h0]
    have : x / ulp p x = n := by rw [div_eq_iff hu.ne']; exact hn
    rw [this, rne_int, ← hn]
  rcases lt_trichotomy x 0 with h0 | h0 | h0
  · have := key (-x) (by linarith) (rep_neg h)
    rw [fl_neg] at this; linarith
  · subst h0; exact fl_zero p
  · exact key x h0 h

theorem rep_fl {p : Nat} (hp : 0 < p) (x : Rat) : Rep p (fl p x) := by
  have key : ∀ x : Rat, 0 < x → Rep p (fl p x) := by
    intro x h
    rw [fl_pos h]
    have hs := scaled hp h
    have h1 : rne (x / ulp p x) ≤ (2 ^ p : Int) := rne_le hs.2.le
    have h2 : (2 ^ (p - 1) : Int) ≤ rne (x / ulp p x) := rne_ge hs.1
    have h3 : (0 : Int) < 2 ^ (p - 1) := by positivity
    rcases h1.eq_or_lt with h1 | h1
    · refine ⟨1, (p : Int) + (Int.log 2 x - p + 1), ?_, ?_⟩
      · rw [abs_one]
        exact one_lt_pow₀ (by norm_num) hp.ne'
      · rw [h1, ulp, zpow_add₀ (by norm_num) (p : Int), zpow_natCast]; push_cast; ring
    · exact ⟨rne (x / ulp p x), Int.log 2 x - p + 1, by rw [abs_of_nonneg (by omega)]; exact h1, rfl⟩
  rcases lt_trichotomy x 0 with h0 | h0 | h0
  · have := rep_neg (key (-x) (by linarith))
    rwa [fl_neg, neg_neg] at this
  · subst h0; rw [fl_zero]; exact ⟨0, 0, by simp, by simp⟩
  · exact key x h0

/-- It is the rounding of the standard: to a nearest number with p digits. -/
theorem fl_nearest {p : Nat} (hp : 0 < p) (x : Rat) : Nearest p x (fl p x) := by
  refine ⟨rep_fl hp x, ?_⟩
  have key : ∀ x : Rat, 0 < x → ∀ z, Rep p z → |x - fl p x| ≤ |x - z| := by
    intro x h z hz
    have hu := ulp_pos p x
    have mul : ∀ n : Int, |x - fl p x| ≤ |x - n * ulp p x| := by
      intro n
      have e : ∀ r : Rat, x - r * ulp p x = (x / ulp p x - r) * ulp p x := by intro r; field_simp
      rw [fl_pos h, e, e, abs_mul, abs_mul]
      exact mul_le_mul_of_nonneg_right (rne_near _ n) (abs_nonneg _)
    by_cases hl : (2 : Rat) ^ Int.log 2 x ≤ z
    · obtain ⟨n, rfl⟩ := rep_mult hz hl
      exact mul n
    · have h1 := mul (2 ^ (p - 1))
      have e : ((2 ^ (p - 1) : Int) : Rat) * ulp p x = (2 : Rat) ^ Int.log 2 x := by
        have : ((2 ^ (p - 1) : Int) : Rat) = (2 : Rat) ^ ((p : Int) - 1) := by
          rw [show (p : Int) - 1 = ((p - 1 : Nat) : Int) by omega, zpow_natCast]; push_cast; rfl
        rw [this, ulp, ← zpow_add₀ (by norm_num)]
        congr 1; ring
      rw [e] at h1
      refine h1.trans ?_
      have h2 := log_le h
      rw [abs_of_nonneg (by linarith), abs_of_nonneg (by linarith)]
      linarith
  intro z hz
  rcases lt_trichotomy x 0 with h0 | h0 | h0
  · have := key (-x) (by linarith) (-z) (rep_neg hz)
    rw [fl_neg] at this
    rwa [show -x - -fl p x = -(x - fl p x) by ring, show -x - -z = -(x - z) by ring, abs_neg, abs_neg] at this
  · subst h0; simp [fl_zero]
  · exact key x h0 z hz

theorem rep_int {p : Nat} {n : Int} (h : |n| < 2 ^ p) : Rep p n := ⟨n, 0, h, by simp⟩

/-- The rounding of a number, when the binade and the nearest multiple are known. -/
theorem fl_eq {p : Nat} {x : Rat} {e n : Int} (h1 : (2 : Rat) ^ e ≤ x) (h2 : x < (2 : Rat) ^ (e + 1)) (h3 : |x / (2 : Rat) ^ (e - p + 1) - n| < 1 / 2) :
    fl p x = n * (2 : Rat) ^ (e - p + 1) := by
  have h0 : 0 < x := lt_of_lt_of_le (by positivity) h1
  have hu : ulp p x = (2 : Rat) ^ (e - p + 1) := by rw [ulp, log_eq h1 h2]
  rw [fl_pos h0, hu, rne_eq h3]

end Ieee
end Salticidae
