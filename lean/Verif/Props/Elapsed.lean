import Verif.Lemmas.Ieee
import Verif.Spec.Elapsed
import Verif.Props.Util
import Verif.Props.Timer
/-!
C125: measuring time; and C69 and C74 with the arithmetic of double.
-/
namespace Salticidae
open Elapsed Spec.Elapsed Ieee Spec.Ieee

/-- C125: the times that stop() gives are right to a millisecond (the precision in which stop(true) logs them). -/
def C125_statement : Prop :=
  ∀ (o o' : Elapsed.Obj) (ops : List Elapsed.Op) (r0 r1 : Reading), Measures ops r0 r1 → Valid r0 → Valid r1 → Elapsed.run o ops = some o' →
    |o'.elapsed - (wallTime r1 - wallTime r0)| ≤ 1 / 1000 ∧ |o'.cpuElapsed - (cpuTime r1 - cpuTime r0)| ≤ 1 / 1000

/-- The rounding in the model is that of the standard: the result has p binary digits, and no number with p digits is nearer. -/
theorem C125_rounding {p : Nat} (hp : 0 < p) (x : Rat) : Nearest p x (fl p x) := fl_nearest hp x

/-- Half-way between two neighbours with p digits, m 2^k and (m + 1) 2^k, it is the one whose last digit is 0. -/
theorem C125_ties {p : Nat} (hp : 0 < p) (m k : Int) (h1 : 2 ^ (p - 1) ≤ m) (h2 : m < 2 ^ p) :
    fl p ((m + 1 / 2) * 2 ^ k) = (if m % 2 = 0 then m else m + 1 : Int) * 2 ^ k ∧ fl p (-((m + 1 / 2) * 2 ^ k)) = -((if m % 2 = 0 then m else m + 1 : Int) * 2 ^ k) := by
  have hk : (0 : Rat) < (2 : Rat) ^ k := by positivity
  have e1 : (2 : Rat) ^ ((p : Int) - 1 + k) = ((2 ^ (p - 1) : Int) : Rat) * 2 ^ k := by
    rw [zpow_add₀ (by norm_num)]
    congr 1
    rw [show (p : Int) - 1 = ((p - 1 : Nat) : Int) by omega, zpow_natCast]; norm_cast
  have e2 : (2 : Rat) ^ ((p : Int) - 1 + k + 1) = ((2 ^ p : Int) : Rat) * 2 ^ k := by
    rw [show (p : Int) - 1 + k + 1 = (p : Int) + k by ring, zpow_add₀ (by norm_num), zpow_natCast]; norm_cast
  have hm1 : ((2 ^ (p - 1) : Int) : Rat) ≤ m := by exact_mod_cast h1
  have hm2 : (m : Rat) + 1 ≤ ((2 ^ p : Int) : Rat) := by exact_mod_cast h2
  have hm0 : (0 : Rat) < m := lt_of_lt_of_le (by positivity) hm1
  have hx : (0 : Rat) < (m + 1 / 2) * 2 ^ k := by positivity
  have hlog : Int.log 2 (((m : Rat) + 1 / 2) * 2 ^ k) = (p : Int) - 1 + k := by
    refine log_eq ?_ ?_
    · rw [e1]; exact mul_le_mul_of_nonneg_right (by linarith) hk.le
    · rw [e2]; exact mul_lt_mul_of_pos_right (by linarith) hk
  have hu : ulp p (((m : Rat) + 1 / 2) * 2 ^ k) = 2 ^ k := by
    rw [ulp, hlog]; congr 1; ring
  have hr : rne ((m : Rat) + 1 / 2) = if m % 2 = 0 then m else m + 1 := by
    have hf : ((m : Rat) + 1 / 2).floor = m := by
      show ⌊(m : Rat) + 1 / 2⌋ = m
      rw [Int.floor_eq_iff]; constructor <;> linarith
    simp only [rne, hf]
    rw [if_neg (by linarith), if_neg (by linarith)]
  have hpos : fl p ((m + 1 / 2) * 2 ^ k) = (if m % 2 = 0 then m else m + 1 : Int) * 2 ^ k := by
    rw [fl_pos hx, hu, mul_div_assoc, div_self hk.ne', mul_one, hr]
  exact ⟨hpos, by rw [fl_neg, hpos]⟩

/-- In double: the integer 2^53 + 1 becomes 2^53, and 2^53 + 3 becomes 2^53 + 4. -/
example : fl 53 (2 ^ 53 + 1) = 2 ^ 53 ∧ fl 53 (2 ^ 53 + 3) = 2 ^ 53 + 4 := by
  have h1 := (C125_ties (p := 53) (by norm_num) (2 ^ 52) 1 (by norm_num) (by norm_num)).1
  have h2 := (C125_ties (p := 53) (by norm_num) (2 ^ 52 + 1) 1 (by norm_num) (by norm_num)).1
  norm_num at h1 h2 ⊢
  exact ⟨h1, h2⟩

example : Rep 24 (3 / 8) ∧ ¬ Rep 1 3 := by
  refine ⟨⟨3, -3, by norm_num, by norm_num⟩, ?_⟩
  rintro ⟨m, k, h1, h2⟩
  have hm : m = -1 ∨ m = 0 ∨ m = 1 := by
    have := abs_lt.mp h1; omega
  have hk : (0 : Rat) < (2 : Rat) ^ k := by positivity
  rcases hm with rfl | rfl | rfl
  · norm_num at h2; linarith
  · norm_num at h2
  · have e : (2 : Rat) ^ k = 3 := by push_cast at h2; linarith
    have a : (2 : Rat) ^ (1 : Int) < (2 : Rat) ^ k := by rw [e]; norm_num
    have b : (2 : Rat) ^ k < (2 : Rat) ^ (2 : Int) := by rw [e]; norm_num
    have := zpow_lt_iff.mp a
    have := zpow_lt_iff.mp b
    omega

namespace Elapsed

theorem run_append {o : Obj} {as bs : List Op} : run o (as ++ bs) = (run o as).bind fun u => run u bs := by
  induction as generalizing o with
  | nil => rfl
  | cons a as ih =>
    simp only [List.cons_append, run]
    cases step o a with
    | none => rfl
    | some u => exact ih

theorem mid_keeps : ∀ {mid : List Op} {o o' : Obj}, (∀ r, .start r ∉ mid) → run o mid = some o' → o'.t0 = o.t0
  | [], o, o', _, h => by cases h; rfl
  | a :: as, o, o', hn, h => by
    simp only [run, Option.bind_eq_some_iff] at h
    obtain ⟨u, h1, h2⟩ := h
    rw [mid_keeps (fun r hr => hn r (by simp [hr])) h2]
    cases a with
    | start r => exact absurd (by simp) (hn r)
    | stop r =>
      simp only [step] at h1
      split at h1 <;> cases h1
      rfl

/-- What a measurement gives. -/
theorem measured {o o' : Obj} {ops : List Op} {r0 r1 : Reading} (hm : Measures ops r0 r1) (h : run o ops = some o') :
    o'.elapsed = fl 53 (wallSec r1 - wallSec r0) ∧ o'.cpuElapsed = fl 24 (cpuSec r1 - cpuSec r0) := by
  obtain ⟨pre, mid, rfl, hn⟩ := hm
  rw [run_append] at h
  obtain ⟨u, h1, h2⟩ := Option.bind_eq_some_iff.mp h
  rw [run_append] at h1
  obtain ⟨v, h3, h4⟩ := Option.bind_eq_some_iff.mp h1
  rw [run_append] at h3
  obtain ⟨w, h5, h6⟩ := Option.bind_eq_some_iff.mp h3
  simp only [run, step, Option.bind_some, Option.some.injEq] at h6
  have h7 : u.t0 = some r0 := by rw [mid_keeps hn h4, ← h6]
  simp only [run, step, h7, Option.bind_some, Option.some.injEq] at h2
  subst h2
  exact ⟨rfl, rfl⟩

/-- The error of one reading of the CPU clock. -/
theorem cpu_err (r : Reading) : 0 ≤ cpuSec r ∧ |cpuSec r - cpuTime r| ≤ cpuTime r * (2 / 2 ^ 24 + 1 / 2 ^ 48) := by
  have hm : fl 24 1000000 = 1000000 := by
    have := fl_rep (rep_int (p := 24) (n := 1000000) (by norm_num))
    exact_mod_cast this
  have hc : (0 : Rat) ≤ r.cpu := by positivity
  have h1 := fl_err (p := 24) (r.cpu : Rat)
  rw [abs_of_nonneg hc] at h1
  have h2 := fl_nonneg (p := 24) (by norm_num) hc
  have h3 := fl_err (p := 24) (fl 24 (r.cpu : Rat) / 1000000)
  have h4 : 0 ≤ fl 24 (r.cpu : Rat) / 1000000 := by positivity
  rw [abs_of_nonneg h4] at h3
  simp only [cpuSec, cpuTime, hm]
  refine ⟨fl_nonneg (by norm_num) h4, ?_⟩
  rw [abs_le] at *
  constructor <;> linarith [h1.1, h1.2, h3.1, h3.2]

theorem wall_err {r : Reading} (hv : Valid r) : 0 ≤ wallSec r ∧ |wallSec r - wallTime r| ≤ 1 / 2 ^ 20 + 1 / 2 ^ 50 := by
  have hs : fl 53 (r.sec : Rat) = r.sec := by
    have := fl_rep (rep_int (p := 53) (n := r.sec) (by rw [abs_of_nonneg (by omega)]; have := hv.2; omega))
    exact_mod_cast this
  have hu : fl 53 (r.usec : Rat) = r.usec := by
    have := fl_rep (rep_int (p := 53) (n := r.usec) (by rw [abs_of_nonneg (by omega)]; have := hv.1; omega))
    exact_mod_cast this
  have s0 : (0 : Rat) ≤ r.sec := by positivity
  have u0 : (0 : Rat) ≤ r.usec := by positivity
  have s1 : (r.sec : Rat) ≤ 2 ^ 33 - 1 := by
    have h : r.sec + 1 ≤ 2 ^ 33 := hv.2
    have : ((r.sec + 1 : Nat) : Rat) ≤ ((2 ^ 33 : Nat) : Rat) := by exact_mod_cast h
    push_cast at this; linarith
  have u1 : (r.usec : Rat) ≤ 1000000 := by exact_mod_cast hv.1.le
  have k1 := fl_err (p := 53) (1 / 1000000)
  rw [abs_of_nonneg (by norm_num : (0 : Rat) ≤ 1 / 1000000)] at k1
  have k0 := fl_nonneg (p := 53) (by norm_num) (by norm_num : (0 : Rat) ≤ 1 / 1000000)
  simp only [wallSec, wallTime, hs, hu]
  generalize fl 53 (1 / 1000000) = k at *
  have p0 : 0 ≤ (r.usec : Rat) * k := by positivity
  have pe : |(r.usec : Rat) * k - r.usec / 1000000| ≤ 1 / 2 ^ 53 := by
    rw [show (r.usec : Rat) * k - r.usec / 1000000 = r.usec * (k - 1 / 1000000) by ring, abs_mul, abs_of_nonneg u0]
    have := mul_le_mul u1 k1 (abs_nonneg _) (by norm_num)
    refine this.trans (by norm_num)
  have p1 := fl_err (p := 53) ((r.usec : Rat) * k)
  have p2 := fl_nonneg (p := 53) (by norm_num) p0
  rw [abs_of_nonneg p0] at p1
  generalize (r.usec : Rat) * k = q at *
  have t1 := fl_err (p := 53) ((r.sec : Rat) + fl 53 q)
  have t0 : 0 ≤ (r.sec : Rat) + fl 53 q := by positivity
  rw [abs_of_nonneg t0] at t1
  refine ⟨fl_nonneg (by norm_num) t0, ?_⟩
  rw [abs_le] at *
  constructor <;> linarith [t1.1, t1.2, p1.1, p1.2, pe.1, pe.2]

end Elapsed

/-- The wall clock: right to 5 microseconds. -/
theorem C125_wall {o o' : Elapsed.Obj} {ops : List Elapsed.Op} {r0 r1 : Reading} (hm : Measures ops r0 r1) (h0 : Valid r0) (h1 : Valid r1) (h : Elapsed.run o ops = some o') :
    |o'.elapsed - (wallTime r1 - wallTime r0)| ≤ 1 / 200000 := by
  rw [(Elapsed.measured hm h).1]
  have e0 := Elapsed.wall_err h0
  have e1 := Elapsed.wall_err h1
  have w : ∀ {r : Reading}, Valid r → wallTime r ≤ 2 ^ 33 ∧ 0 ≤ wallTime r := by
    intro r hv
    have s1 : (r.sec : Rat) ≤ 2 ^ 33 - 1 := by
      have h : r.sec + 1 ≤ 2 ^ 33 := hv.2
      have : ((r.sec + 1 : Nat) : Rat) ≤ ((2 ^ 33 : Nat) : Rat) := by exact_mod_cast h
      push_cast at this; linarith
    have u1 : (r.usec : Rat) ≤ 1000000 := by exact_mod_cast hv.1.le
    refine ⟨?_, by unfold wallTime; positivity⟩
    simp only [wallTime]; linarith
  have w0 := w h0
  have w1 := w h1
  have f := fl_err (p := 53) (wallSec r1 - wallSec r0)
  have a : |wallSec r1 - wallSec r0| ≤ 2 ^ 33 + 1 := by
    have := abs_le.mp e0.2
    have := abs_le.mp e1.2
    rw [abs_le]; constructor <;> linarith
  have f' : |fl 53 (wallSec r1 - wallSec r0) - (wallSec r1 - wallSec r0)| ≤ (2 ^ 33 + 1) / 2 ^ 53 :=
    f.trans (by gcongr)
  have := abs_le.mp e0.2
  have := abs_le.mp e1.2
  have := abs_le.mp f'
  rw [abs_le]; constructor <;> linarith

/-- The CPU clock, always: the error grows with the CPU time the process has used, not with what is measured. -/
theorem C125_cpu_bound {o o' : Elapsed.Obj} {ops : List Elapsed.Op} {r0 r1 : Reading} (hm : Measures ops r0 r1) (h : Elapsed.run o ops = some o') :
    |o'.cpuElapsed - (cpuTime r1 - cpuTime r0)| ≤ (cpuTime r0 + cpuTime r1) * 7 / 2 ^ 25 := by
  rw [(Elapsed.measured hm h).2]
  have e0 := Elapsed.cpu_err r0
  have e1 := Elapsed.cpu_err r1
  have w0 : 0 ≤ cpuTime r0 := by unfold cpuTime; positivity
  have w1 : 0 ≤ cpuTime r1 := by unfold cpuTime; positivity
  have f := fl_err (p := 24) (cpuSec r1 - cpuSec r0)
  have a : |cpuSec r1 - cpuSec r0| ≤ cpuSec r1 + cpuSec r0 := by
    rw [abs_le]; constructor <;> linarith [e0.1, e1.1]
  have f' : |fl 24 (cpuSec r1 - cpuSec r0) - (cpuSec r1 - cpuSec r0)| ≤ (cpuSec r1 + cpuSec r0) / 2 ^ 24 := f.trans (by gcongr)
  have := abs_le.mp e0.2
  have := abs_le.mp e1.2
  have := abs_le.mp f'
  rw [abs_le]; constructor <;> linarith

/-- Processes that have used less than 2^31 microseconds (35 minutes) of CPU time.  Missing: those that run longer. -/
theorem C125_partial {o o' : Elapsed.Obj} {ops : List Elapsed.Op} {r0 r1 : Reading} (hm : Measures ops r0 r1) (h0 : Valid r0) (h1 : Valid r1) (c0 : r0.cpu < 2 ^ 31) (c1 : r1.cpu < 2 ^ 31)
    (h : Elapsed.run o ops = some o') : |o'.elapsed - (wallTime r1 - wallTime r0)| ≤ 1 / 1000 ∧ |o'.cpuElapsed - (cpuTime r1 - cpuTime r0)| ≤ 1 / 1000 := by
  refine ⟨(C125_wall hm h0 h1 h).trans (by norm_num), (C125_cpu_bound hm h).trans ?_⟩
  have a0 : (r0.cpu : Rat) ≤ 2 ^ 31 := by exact_mod_cast c0.le
  have a1 : (r1.cpu : Rat) ≤ 2 ^ 31 := by exact_mod_cast c1.le
  simp only [cpuTime]; linarith

/-- Clocks that do not go back: no negative times. -/
theorem C125_order {o o' : Elapsed.Obj} {ops : List Elapsed.Op} {r0 r1 : Reading} (hm : Measures ops r0 r1) (h0 : Valid r0) (h1 : Valid r1) (h : Elapsed.run o ops = some o') :
    (wallTime r0 ≤ wallTime r1 → 0 ≤ o'.elapsed) ∧ (r0.cpu ≤ r1.cpu → 0 ≤ o'.cpuElapsed) := by
  rw [(Elapsed.measured hm h).1, (Elapsed.measured hm h).2]
  constructor
  · intro hw
    have hs : ∀ {r : Reading}, Valid r → fl 53 (r.sec : Rat) = r.sec := by
      intro r hv
      have := fl_rep (rep_int (p := 53) (n := r.sec) (by rw [abs_of_nonneg (by omega)]; have := hv.2; omega))
      exact_mod_cast this
    have k1 := fl_err (p := 53) (1 / 1000000)
    rw [abs_of_nonneg (by norm_num : (0 : Rat) ≤ 1 / 1000000)] at k1
    have k0 := fl_nonneg (p := 53) (by norm_num) (by norm_num : (0 : Rat) ≤ 1 / 1000000)
    have k2 := (abs_le.mp k1).2
    suffices wallSec r0 ≤ wallSec r1 from fl_nonneg (by norm_num) (by linarith)
    simp only [wallSec, hs h0, hs h1]
    generalize fl 53 (1 / 1000000) = k at *
    refine fl_mono (by norm_num) ?_
    have b : ∀ {r : Reading}, Valid r → 0 ≤ fl 53 (fl 53 (r.usec : Rat) * k) ∧ fl 53 (fl 53 (r.usec : Rat) * k) ≤ 1 := by
      intro r hv
      have hu : fl 53 (r.usec : Rat) = r.usec := by
        have := fl_rep (rep_int (p := 53) (n := r.usec) (by rw [abs_of_nonneg (by omega)]; have := hv.1; omega))
        exact_mod_cast this
      have u1 : (r.usec : Rat) ≤ 999999 := by exact_mod_cast Nat.le_of_lt_succ hv.1
      rw [hu]
      refine ⟨fl_nonneg (by norm_num) (by positivity), ?_⟩
      have h1 : fl 53 (1 : Rat) = 1 := by
        have := fl_rep (rep_int (p := 53) (n := 1) (by norm_num))
        exact_mod_cast this
      rw [← h1]
      refine fl_mono (by norm_num) ?_
      have := mul_le_mul u1 (show k ≤ 1 / 1000000 + 1 / 1000000 / 2 ^ 53 by linarith) k0 (by norm_num)
      exact this.trans (by norm_num)
    have u0 : (r0.usec : Rat) < 1000000 := by exact_mod_cast h0.1
    have u1 : (r1.usec : Rat) < 1000000 := by exact_mod_cast h1.1
    rcases lt_trichotomy r0.sec r1.sec with c | c | c
    · have c : (r0.sec : Rat) + 1 ≤ r1.sec := by exact_mod_cast c
      linarith [(b h0).2, (b h1).1]
    · have : (r0.usec : Rat) ≤ r1.usec := by
        simp only [wallTime, c] at hw; linarith
      rw [c]
      have := fl_mono (p := 53) (by norm_num) (mul_le_mul_of_nonneg_right (fl_mono (p := 53) (by norm_num) this) k0)
      linarith
    · have c : (r1.sec : Rat) + 1 ≤ r0.sec := by exact_mod_cast c
      have z : (0 : Rat) ≤ r0.usec := by positivity
      simp only [wallTime] at hw
      linarith
  · intro hc
    have hc : (r0.cpu : Rat) ≤ r1.cpu := by exact_mod_cast hc
    have hm : (0 : Rat) ≤ fl 24 1000000 := fl_nonneg (by norm_num) (by norm_num)
    have : cpuSec r0 ≤ cpuSec r1 := fl_mono (by norm_num) (div_le_div_of_nonneg_right (fl_mono (by norm_num) hc) hm)
    exact fl_nonneg (by norm_num) (by linarith)

/-- Times that are lost: a process that has used 2^e microseconds of CPU time, and fewer than 2^(e-24) more. -/
theorem Elapsed.lost {e d : Nat} (he : 24 ≤ e) (hd : d < 2 ^ (e - 24)) : cpuSec ⟨0, 0, 2 ^ e + d⟩ = cpuSec ⟨0, 0, 2 ^ e⟩ := by
  obtain ⟨j, rfl⟩ := Nat.exists_eq_add_of_le he
  rw [Nat.add_sub_cancel_left] at hd
  have hd : (d : Rat) < 2 ^ j := by exact_mod_cast hd
  have e4 : (2 : Rat) ^ (24 + j) = 2 ^ j * 16777216 := by rw [pow_add]; norm_num; ring
  have hz : ∀ x : Rat, 0 ≤ x → x < 2 ^ j → fl 24 ((2 : Rat) ^ (24 + j) + x) = 2 ^ j * 16777216 := by
    intro x x0 x1
    have e1 : (2 : Rat) ^ ((24 + j : Nat) : Int) = 2 ^ (24 + j) := zpow_natCast _ _
    have e2 : (2 : Rat) ^ (((24 + j : Nat) : Int) + 1) = 2 * 2 ^ (24 + j) := by
      rw [zpow_add₀ (by norm_num), e1]; ring
    have e3 : (2 : Rat) ^ (((24 + j : Nat) : Int) - (24 : Nat) + 1) = 2 * 2 ^ j := by
      rw [show ((24 + j : Nat) : Int) - (24 : Nat) + 1 = ((j + 1 : Nat) : Int) by push_cast; ring, zpow_natCast]; ring
    have p0 : (0 : Rat) < 2 ^ j := by positivity
    rw [fl_eq (e := ((24 + j : Nat) : Int)) (n := 8388608) (by rw [e1]; linarith) (by rw [e2, e4]; linarith) ?_, e3]
    · push_cast; ring
    · rw [e3, e4, show ((2 : Rat) ^ j * 16777216 + x) / (2 * 2 ^ j) - ((8388608 : Int) : Rat) = x / (2 * 2 ^ j) by field_simp; push_cast; ring]
      rw [abs_of_nonneg (by positivity), div_lt_div_iff₀ (by positivity) (by norm_num)]
      linarith
  have a1 : ((2 ^ (24 + j) + d : Nat) : Rat) = (2 : Rat) ^ (24 + j) + d := by push_cast; rfl
  have a2 : ((2 ^ (24 + j) : Nat) : Rat) = (2 : Rat) ^ (24 + j) + 0 := by push_cast; ring
  have h1 := hz d (by positivity) hd
  have h0 := hz 0 (le_refl _) (by positivity)
  unfold cpuSec
  dsimp only
  rw [a1, a2, h1, h0]

/-- However long the time that is measured, for a process that has used enough CPU time it is reported as 0. -/
theorem C125_violated_any (d : Nat) : ∃ r0 r1 : Reading, r1.cpu = r0.cpu + d ∧ Valid r0 ∧ Valid r1 ∧ ∀ (o o' : Elapsed.Obj) (ops : List Elapsed.Op), Measures ops r0 r1 → Elapsed.run o ops = some o' → o'.cpuElapsed = 0 := by
  refine ⟨⟨0, 0, 2 ^ (24 + d)⟩, ⟨0, 0, 2 ^ (24 + d) + d⟩, rfl, ⟨by norm_num, by norm_num⟩, ⟨by norm_num, by norm_num⟩, fun o o' ops hm h => ?_⟩
  rw [(Elapsed.measured hm h).2, Elapsed.lost (by omega) (by rw [Nat.add_sub_cancel_left]; exact d.lt_two_pow_self), sub_self, fl_zero]

/-- A process that has used 2^35 microseconds (nine and a half hours) of CPU time: 2 milliseconds are reported as 0. -/
theorem C125_violated : ¬ C125_statement := by
  intro hst
  have hm : Measures [.start ⟨0, 0, 2 ^ 35⟩, .stop ⟨0, 0, 2 ^ 35 + 2000⟩] ⟨0, 0, 2 ^ 35⟩ ⟨0, 0, 2 ^ 35 + 2000⟩ := ⟨[], [], rfl, by simp⟩
  have hr : ∀ r0 r1 : Reading, Elapsed.run ⟨none, 0, 0⟩ [.start r0, .stop r1] = some ⟨some r0, fl 53 (wallSec r1 - wallSec r0), fl 24 (cpuSec r1 - cpuSec r0)⟩ := fun _ _ => rfl
  have h1 := (hst _ _ _ _ _ hm ⟨by norm_num, by norm_num⟩ ⟨by norm_num, by norm_num⟩ (hr _ _)).2
  dsimp only at h1
  rw [Elapsed.lost (by norm_num) (by norm_num), sub_self, fl_zero] at h1
  have h2 := (abs_le.mp h1).1
  simp only [cpuTime] at h2
  push_cast at h2
  linarith

/-- An object that is used twice: the hypotheses hold, and the measured time is that since the second start. -/
example : Measures [.start ⟨5, 0, 10⟩, .stop ⟨6, 0, 20⟩, .start ⟨7, 500000, 30⟩, .stop ⟨8, 0, 35⟩, .stop ⟨9, 0, 1000030⟩] ⟨7, 500000, 30⟩ ⟨9, 0, 1000030⟩ ∧
    Valid ⟨7, 500000, 30⟩ ∧ Valid ⟨9, 0, 1000030⟩ ∧ wallTime ⟨9, 0, 1000030⟩ - wallTime ⟨7, 500000, 30⟩ = 3 / 2 ∧ cpuTime ⟨9, 0, 1000030⟩ - cpuTime ⟨7, 500000, 30⟩ = 1 ∧
    (Elapsed.run ⟨none, 0, 0⟩ [.start ⟨5, 0, 10⟩, .stop ⟨6, 0, 20⟩, .start ⟨7, 500000, 30⟩, .stop ⟨8, 0, 35⟩, .stop ⟨9, 0, 1000030⟩]).isSome = true := by
  refine ⟨⟨[.start ⟨5, 0, 10⟩, .stop ⟨6, 0, 20⟩], [.stop ⟨8, 0, 35⟩], rfl, by simp⟩, ⟨by norm_num, by norm_num⟩, ⟨by norm_num, by norm_num⟩, ?_, ?_, rfl⟩ <;> norm_num [wallTime, cpuTime]

/-- stop() before start() reads members that were never written. -/
example (o : Elapsed.Obj) (h : o.t0 = none) (r : Reading) : Elapsed.run o [.stop r] = none := by simp [Elapsed.run, Elapsed.step, h]

/-! ### C69 and C74 in the arithmetic of double -/

theorem Ieee.one53 : fl 53 (1 : Rat) = 1 := by
  have := fl_rep (rep_int (p := 53) (n := 1) (by norm_num))
  exact_mod_cast this

/-- C69 with the rounding of double: for all arguments that are doubles (and not negative). -/
theorem C69_double {base alpha : Rat} (hb : 0 ≤ base) (ha : 0 ≤ alpha) (rb : Rep 53 base) (ra : Rep 53 alpha) (r m : Nat) (hm : 0 < m) (hr : r ≤ m) :
    base ≤ Util.genRandTimeout (fl 53) base alpha r m ∧ Util.genRandTimeout (fl 53) base alpha r m ≤ fl 53 (base + fl 53 (alpha * base)) := by
  have h := C69_rand_timeout (fl 53) (fun x y h => fl_mono (by norm_num) h) base alpha hb ha (fl_zero 53) Ieee.one53 (fl_rep ra) (fl_rep rb) r m hm hr
  exact ⟨h.1, h.2.1⟩

/-- The retry delay of a peer, 2 seconds and alpha = 0.5, with RAND_MAX of glibc. -/
example : Rep 53 2 ∧ Rep 53 (1 / 2) ∧ (0 : Rat) ≤ 2 ∧ (0 : Rat) ≤ 1 / 2 := ⟨⟨1, 1, by norm_num, by norm_num⟩, ⟨1, -1, by norm_num, by norm_num⟩, by norm_num, by norm_num⟩

/-- The difference in sec2tv is exact. -/
theorem Ieee.frac_exact {t : Rat} (h : Rep 53 t) (h0 : 0 ≤ t) : Rep 53 ((t.floor : Int) : Rat) ∧ Rep 53 (t - t.floor) ∧ (t - t.floor ≤ 1 / 2 ∨ t - t.floor ≤ 1 - 1 / 2 ^ 53) := by
  have f1 := floor_le' t
  have f2 := lt_floor' t
  have f0 : 0 ≤ t.floor := Int.floor_nonneg.mpr h0
  obtain ⟨m, k, hm, e⟩ := h
  have hm' := abs_lt.mp hm
  by_cases hk : 0 ≤ k
  · obtain ⟨j, rfl⟩ := Int.eq_ofNat_of_zero_le hk
    have e2 : t = ((m * 2 ^ j : Int) : Rat) := by rw [e, zpow_natCast]; push_cast; rfl
    have e3 : t.floor = m * 2 ^ j := by rw [e2]; exact Rat.floor_intCast _
    have e4 : t - t.floor = 0 := by rw [e3, ← e2, sub_self]
    refine ⟨⟨m, j, hm, by rw [e3, ← e2, e]⟩, ?_, .inl (by rw [e4]; norm_num)⟩
    rw [e4]; exact ⟨0, 0, by norm_num, by norm_num⟩
  · obtain ⟨j, hj⟩ := Int.eq_ofNat_of_zero_le (a := -k) (by omega)
    have hk : k = -(j : Int) := by omega
    subst hk
    rw [zpow_neg, zpow_natCast] at e
    have pj : (0 : Rat) < 2 ^ j := by positivity
    have e2 : (m : Rat) = t * 2 ^ j := by rw [e]; field_simp
    have e3 : t - t.floor = ((m - t.floor * 2 ^ j : Int) : Rat) * (2 : Rat) ^ (-(j : Int)) := by
      push_cast; rw [e2, zpow_neg, zpow_natCast]; field_simp
    have n0 : 0 ≤ m - t.floor * 2 ^ j := by
      have : (0 : Rat) ≤ ((m - t.floor * 2 ^ j : Int) : Rat) := by
        push_cast; rw [e2, ← sub_mul]; exact mul_nonneg (by linarith) pj.le
      exact_mod_cast this
    have n1 : 0 ≤ t.floor * 2 ^ j := by positivity
    have n2 : m - t.floor * 2 ^ j < 2 ^ 53 := by omega
    refine ⟨rep_int ?_, ⟨m - t.floor * 2 ^ j, -(j : Int), by rw [abs_of_nonneg n0]; exact n2, e3⟩, ?_⟩
    · rw [abs_of_nonneg f0]
      have : t.floor * 1 ≤ t.floor * 2 ^ j := mul_le_mul_of_nonneg_left (one_le_pow₀ (by norm_num)) f0
      omega
    · rw [zpow_neg, zpow_natCast] at e3
      have e4 : ((m - t.floor * 2 ^ j : Int) : Rat) = (t - t.floor) * 2 ^ j := by rw [e3]; field_simp
      by_cases c : j ≤ 53
      · right
        have h1 : ((m - t.floor * 2 ^ j : Int) : Rat) < ((2 ^ j : Int) : Rat) := by
          rw [e4]; push_cast
          have := mul_lt_mul_of_pos_right (show t - t.floor < 1 by linarith) pj
          linarith
        have h2 : m - t.floor * 2 ^ j < 2 ^ j := by exact_mod_cast h1
        have h3 : ((m - t.floor * 2 ^ j : Int) : Rat) + 1 ≤ 2 ^ j := by exact_mod_cast h2
        rw [e4] at h3
        have h4 : (2 : Rat) ^ j ≤ 2 ^ 53 := pow_le_pow_right₀ (by norm_num) c
        have h5 : t - t.floor ≤ 1 - 1 / 2 ^ j := by
          rw [le_sub_iff_add_le, ← le_sub_iff_add_le', ]
          rw [div_le_iff₀ pj]; linarith
        have h6 : (1 : Rat) / 2 ^ 53 ≤ 1 / 2 ^ j := one_div_le_one_div_of_le pj h4
        linarith
      · left
        have h2 : ((m - t.floor * 2 ^ j : Int) : Rat) ≤ 2 ^ 53 := by exact_mod_cast n2.le
        rw [e4] at h2
        have h4 : (2 : Rat) ^ 54 ≤ 2 ^ j := pow_le_pow_right₀ (by norm_num) (by omega)
        have h5 : (t - t.floor) * 2 ^ 54 ≤ 2 ^ 53 := (mul_le_mul_of_nonneg_left h4 (by linarith)).trans h2
        norm_num at h5 ⊢
        linarith

/-- C74 with the rounding of double: for every double that is not negative the timeval is normalised, and differs from the time by at most a microsecond and a rounding. -/
theorem C74_double {t : Rat} (h : Rep 53 t) (h0 : 0 ≤ t) :
    let (s, u) := Ieee.sec2tv t
    0 ≤ s ∧ 0 ≤ u ∧ u < 1000000 ∧ t - 1 / 1000000 - 1 / 2 ^ 53 < (s : Rat) + (u : Rat) / 1000000 ∧ (s : Rat) + (u : Rat) / 1000000 ≤ t + 1 / 2 ^ 53 := by
  obtain ⟨r1, r2, c⟩ := Ieee.frac_exact h h0
  have f1 := floor_le' t
  have f2 := lt_floor' t
  simp only [Ieee.sec2tv, fl_rep r1, fl_rep r2]
  have z : 0 ≤ (t - t.floor) * 1000000 := by linarith
  have b1 := fl_nonneg (p := 53) (by norm_num) z
  have e := fl_err (p := 53) ((t - t.floor) * 1000000)
  rw [abs_of_nonneg z] at e
  have e1 := (abs_le.mp e).1
  have e2 := (abs_le.mp e).2
  have g1 := floor_le' (fl 53 ((t - t.floor) * 1000000))
  have g2 := lt_floor' (fl 53 ((t - t.floor) * 1000000))
  have lt : fl 53 ((t - t.floor) * 1000000) < 1000000 := by
    rcases c with c | c
    · linarith
    · refine lt_of_le_of_lt (fl_mono (by norm_num) (show _ ≤ (1 - 1 / 2 ^ 53) * 1000000 by linarith)) ?_
      rw [fl_eq (e := 19) (n := 8589934592000000 - 1) (by norm_num) (by norm_num) (by rw [abs_lt]; norm_num)]
      norm_num
  refine ⟨Int.floor_nonneg.mpr h0, Int.floor_nonneg.mpr b1, ?_, by linarith, by linarith⟩
  have : ((fl 53 ((t - t.floor) * 1000000)).floor : Rat) < ((1000000 : Int) : Rat) := by push_cast; linarith
  exact_mod_cast this

/-- 2.25 seconds. -/
example : Rep 53 (9 / 4) ∧ Ieee.sec2tv (9 / 4) = (2, 250000) := by
  have h : Rep 53 (9 / 4) := ⟨9, -2, by norm_num, by norm_num⟩
  refine ⟨h, ?_⟩
  have f : (9 / 4 : Rat).floor = 2 := by decide +kernel
  have g : Rep 53 ((2 : Int) : Rat) := rep_int (by norm_num)
  have k : Rep 53 (9 / 4 - ((2 : Int) : Rat)) := ⟨1, -2, by norm_num, by norm_num⟩
  have i : Rep 53 ((9 / 4 - ((2 : Int) : Rat)) * 1000000) := ⟨250000, 0, by norm_num, by norm_num⟩
  simp only [Ieee.sec2tv, f, fl_rep g, fl_rep k, fl_rep i]
  norm_num
  decide +kernel

/-- What the theorems of C108 assume of the rounding holds of double. -/
theorem C108_double : Spec.Timer.Rounding (fl 53) where
  mono _ _ h := fl_mono (by norm_num) h
  whole n h := by
    by_cases c : n.natAbs < 2 ^ 53
    · exact fl_rep (rep_int (by rw [Int.abs_eq_natAbs]; omega))
    · have : n = 2 ^ 53 ∨ n = -2 ^ 53 := by omega
      rcases this with rfl | rfl
      · exact fl_rep ⟨1, 53, by norm_num, by norm_num⟩
      · exact fl_rep ⟨-1, 53, by norm_num, by norm_num⟩

/-- C108: a time in seconds becomes the number of milliseconds that is its (rounded) product with 1000 without the fraction, exactly when that is a uint64_t (other conversions are undefined). -/
theorem C108_conversion (rnd : Rat → Rat) (t : Rat) (ms : Nat) : Timer.toMs rnd t = some ms ↔ (ms : Int) = Spec.Timer.trunc (rnd (t * 1000)) ∧ ms < 2 ^ 64 := by
  simp only [Timer.toMs, Spec.Timer.trunc]
  have hU : (Timer.u64 : Rat) = 2 ^ 64 := by norm_num [Timer.u64]
  generalize rnd (t * 1000) = x
  have f1 := floor_le' x
  have f2 := lt_floor' x
  have hf : x.floor = ⌊x⌋ := rfl
  have hc : x.ceil = ⌈x⌉ := Rat.ceil_eq_neg_floor_neg x
  by_cases h0 : 0 ≤ x
  · have hn : 0 ≤ x.floor := Int.floor_nonneg.mpr h0
    rw [if_pos h0]
    constructor
    · intro h
      split at h
      · next hx =>
        cases h
        refine ⟨by omega, ?_⟩
        have : ((x.floor : Int) : Rat) < ((2 ^ 64 : Int) : Rat) := lt_of_le_of_lt f1 (by have := hx.2; rw [hU] at this; push_cast; exact this)
        have : x.floor < 2 ^ 64 := by exact_mod_cast this
        omega
      · cases h
    · rintro ⟨h1, h2⟩
      rw [if_pos, ← h1]
      · rfl
      · refine ⟨by linarith, ?_⟩
        have h3 : x.floor + 1 ≤ 2 ^ 64 := by omega
        have h4 : ((x.floor + 1 : Int) : Rat) ≤ ((2 ^ 64 : Int) : Rat) := by exact_mod_cast h3
        push_cast at h4
        rw [hU]
        linarith
  · rw [if_neg h0, hc]
    constructor
    · intro h
      split at h
      · next hx =>
        cases h
        have e1 : x.floor < 0 := by
          have : ((x.floor : Int) : Rat) < ((0 : Int) : Rat) := by push_cast; linarith
          exact_mod_cast this
        have e2 : ⌈x⌉ = 0 := by
          rw [Int.ceil_eq_iff]; push_cast; exact ⟨by linarith [hx.1], by linarith⟩
        rw [e2]
        omega
      · cases h
    · rintro ⟨h1, h2⟩
      have h3 : (⌈x⌉ : Rat) < x + 1 := Int.ceil_lt_add_one x
      have h4 : (0 : Rat) ≤ (⌈x⌉ : Rat) := by rw [← h1]; positivity
      have e1 : x.floor < 0 := by
        have : ((x.floor : Int) : Rat) < ((0 : Int) : Rat) := by push_cast; linarith
        exact_mod_cast this
      have e2 : ⌈x⌉ ≤ 0 := Int.ceil_le.mpr (by push_cast; linarith)
      rw [if_pos ⟨by linarith, by rw [hU]; linarith⟩]
      congr 1
      omega

/-- A quarter of a second; half a millisecond less than no time; a millisecond less. -/
example : Timer.toMs id (1 / 4) = some 250 ∧ Timer.toMs id (-1 / 2000) = some 0 ∧ Timer.toMs id (-1 / 1000) = none := by decide +kernel

end Salticidae
