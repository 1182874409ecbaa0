import Verif.Model.Stamp
import Verif.Spec.Stamp
import Verif.Lemmas.NetAddr
/-!
C134: times in the log.
-/
namespace Salticidae
namespace Stamp
open Util (Str)
open Spec.Stamp

theorem daysToYear_succ (y : Nat) : daysToYear (y + 1) = daysToYear y + yearLen y := by
  have hl : leap y = true ↔ (y % 4 = 0 ∧ (y % 100 = 0 → y % 400 = 0)) := by
    simp only [leap, Bool.and_eq_true, beq_iff_eq, Bool.or_eq_true, bne_iff_ne, ne_eq]
    omega
  simp only [daysToYear, yearLen]
  cases hy : leap y
  · have : ¬ (y % 4 = 0 ∧ (y % 100 = 0 → y % 400 = 0)) := by rw [← hl, hy]; simp
    simp only [Bool.false_eq_true, if_false]
    omega
  · have := hl.1 hy
    simp only [if_true]
    omega

theorem yearOf_ok : ∀ (f y d : Nat), 1 ≤ y → d < f → y ≤ (yearOf f y d).1 ∧ (yearOf f y d).2 < yearLen (yearOf f y d).1 ∧ daysToYear (yearOf f y d).1 + (yearOf f y d).2 = daysToYear y + d
  | 0, _, _, _, h => by omega
  | f + 1, y, d, hy, h => by
    simp only [yearOf]
    split
    · rename_i hd; exact ⟨Nat.le_refl _, hd, rfl⟩
    · rename_i hd
      have hp : 365 ≤ yearLen y := by simp only [yearLen]; split <;> omega
      obtain ⟨h1, h2, h3⟩ := yearOf_ok f (y + 1) (d - yearLen y) (by omega) (by omega)
      have := daysToYear_succ y
      exact ⟨by omega, h2, by omega⟩

theorem monthOf_gen : ∀ (ls : List Nat) (m d : Nat), d < ls.sum → ∃ k, k < ls.length ∧ (monthOf ls m d).1 = m + k ∧ (ls.take k).sum + (monthOf ls m d).2 = d ∧ (monthOf ls m d).2 < ls.getD k 0
  | [], m, d, h => by simp at h
  | l :: ls, m, d, h => by
    simp only [monthOf]
    split
    · rename_i hd
      exact ⟨0, by simp, rfl, by simp, by simpa using hd⟩
    · rename_i hd
      simp only [List.sum_cons] at h
      obtain ⟨k, h1, h2, h3, h4⟩ := monthOf_gen ls (m + 1) (d - l) (by omega)
      refine ⟨k + 1, by simpa using h1, by omega, ?_, by simpa using h4⟩
      simp only [List.take_succ_cons, List.sum_cons]
      omega

theorem months_sum : ∀ (b : Bool) (k : Nat), k < 12 → (([31, if b then 29 else 28, 31, 30, 31, 30, 31, 31, 30, 31, 30, 31] : List Nat).take k).sum =
    [0, 0, 31, 59, 90, 120, 151, 181, 212, 243, 273, 304, 334].getD (1 + k) 0 + (if 2 < 1 + k ∧ b = true then 1 else 0) ∧
    ([31, if b then 29 else 28, 31, 30, 31, 30, 31, 31, 30, 31, 30, 31] : List Nat).getD k 0 ≤ 31 := by decide

theorem monthOf_ok {y d : Nat} (h : d < yearLen y) :
    1 ≤ (monthOf (monthLens y) 1 d).1 ∧ (monthOf (monthLens y) 1 d).1 ≤ 12 ∧ (monthOf (monthLens y) 1 d).2 < 31 ∧
      daysToMonth y (monthOf (monthLens y) 1 d).1 + (monthOf (monthLens y) 1 d).2 = d := by
  have hl : leap y = true ↔ (y % 4 = 0 ∧ (y % 100 = 0 → y % 400 = 0)) := by
    simp only [leap, Bool.and_eq_true, beq_iff_eq, Bool.or_eq_true, bne_iff_ne, ne_eq]
    omega
  have hsum : d < (monthLens y).sum := by
    simp only [yearLen, monthLens] at h ⊢
    cases hy : leap y <;> simp [hy] at h ⊢ <;> omega
  obtain ⟨k, h1, h2, h3, h4⟩ := monthOf_gen (monthLens y) 1 d hsum
  have hk : k < 12 := h1
  obtain ⟨g1, g2⟩ := months_sum (leap y) k hk
  rw [h2, daysToMonth]
  simp only [← hl]
  rw [← g1]
  exact ⟨by omega, by omega, Nat.lt_of_lt_of_le h4 g2, h3⟩

theorem digit_ok : ∀ {n : Nat}, n < 10 → Spec.digits.idxOf (Char.ofNat ('0'.toNat + n)) = n := by decide

theorem decimal_pad2 {n : Nat} (h : n < 100) : Spec.decimal (pad2 n) = n := by
  simp only [pad2, List.map_cons, List.map_nil, Spec.decimal, List.length_cons, List.length_nil]
  rw [digit_ok (Nat.mod_lt _ (by omega)), digit_ok (Nat.mod_lt _ (by omega))]
  omega

theorem decimal_pad6 {n : Nat} (h : n < 1000000) : Spec.decimal (Logger.pad6 n) = n := by
  simp only [Logger.pad6, List.map_cons, List.map_nil, Spec.decimal, List.length_cons, List.length_nil]
  simp only [digit_ok (Nat.mod_lt _ (show 10 > 0 by omega))]
  omega

theorem toDigits_digits (n : Nat) : ∀ c ∈ Nat.toDigits 10 n, c ∈ Spec.digits := by
  intro c hc
  have := Nat.isDigit_of_mem_toDigits (by decide) (by decide) hc
  rw [← digit_iff]
  simp only [Char.isDigit, Bool.and_eq_true, decide_eq_true_eq, ge_iff_le, UInt32.le_iff_toNat_le] at this
  simp only [isDigit, Bool.and_eq_true, decide_eq_true_eq]
  exact this

theorem decimal_toDigits (n : Nat) : Spec.decimal (Nat.toDigits 10 n) = n := by
  rw [← decValue_eq (toDigits_digits n)]
  exact Nat.ofDigitChars_ten_toDigits

theorem moment_text (y m d h mi s us : Nat) (hm : m < 100) (hd : d < 100) (hh : h < 100) (hmi : mi < 100) (hs : s < 100) (hus : us < 1000000) :
    moment (strftime ⟨y, m, d, h, mi, s⟩ ++ '.' :: Logger.pad6 us) =
      ((((daysToYear y + daysToMonth y m + d - 1) * 24 + h) * 60 + mi) * 60 + s) * 1000000 + us := by
  have e : strftime ⟨y, m, d, h, mi, s⟩ ++ '.' :: Logger.pad6 us = Nat.toDigits 10 y ++ ('-' :: (pad2 m ++ '-' :: (pad2 d ++ ' ' :: (pad2 h ++ ':' :: (pad2 mi ++ ':' :: (pad2 s ++ '.' :: Logger.pad6 us)))))) := by
    simp [strftime]
  have hp : ∀ c ∈ Nat.toDigits 10 y, decide (c ≠ '-') = true := fun c hc => by
    have := toDigits_digits y c hc
    simp only [ne_eq, decide_eq_true_eq]
    rintro rfl
    exact absurd this (by decide)
  have ht : (Nat.toDigits 10 y ++ ('-' :: (pad2 m ++ '-' :: (pad2 d ++ ' ' :: (pad2 h ++ ':' :: (pad2 mi ++ ':' :: (pad2 s ++ '.' :: Logger.pad6 us))))))).takeWhile (fun c => decide (c ≠ '-')) = Nat.toDigits 10 y := by
    rw [List.takeWhile_append_of_pos hp]; simp
  rw [e, moment]
  simp only [ht, List.drop_left, decimal_toDigits]
  have f1 : Spec.decimal ((('-' :: (pad2 m ++ '-' :: (pad2 d ++ ' ' :: (pad2 h ++ ':' :: (pad2 mi ++ ':' :: (pad2 s ++ '.' :: Logger.pad6 us)))))).drop 1).take 2) = m := decimal_pad2 hm
  have f2 : Spec.decimal ((('-' :: (pad2 m ++ '-' :: (pad2 d ++ ' ' :: (pad2 h ++ ':' :: (pad2 mi ++ ':' :: (pad2 s ++ '.' :: Logger.pad6 us)))))).drop 4).take 2) = d := decimal_pad2 hd
  have f3 : Spec.decimal ((('-' :: (pad2 m ++ '-' :: (pad2 d ++ ' ' :: (pad2 h ++ ':' :: (pad2 mi ++ ':' :: (pad2 s ++ '.' :: Logger.pad6 us)))))).drop 7).take 2) = h := decimal_pad2 hh
  have f4 : Spec.decimal ((('-' :: (pad2 m ++ '-' :: (pad2 d ++ ' ' :: (pad2 h ++ ':' :: (pad2 mi ++ ':' :: (pad2 s ++ '.' :: Logger.pad6 us)))))).drop 10).take 2) = mi := decimal_pad2 hmi
  have f5 : Spec.decimal ((('-' :: (pad2 m ++ '-' :: (pad2 d ++ ' ' :: (pad2 h ++ ':' :: (pad2 mi ++ ':' :: (pad2 s ++ '.' :: Logger.pad6 us)))))).drop 13).take 2) = s := decimal_pad2 hs
  have f6 : Spec.decimal ((('-' :: (pad2 m ++ '-' :: (pad2 d ++ ' ' :: (pad2 h ++ ':' :: (pad2 mi ++ ':' :: (pad2 s ++ '.' :: Logger.pad6 us)))))).drop 16).take 6) = us := decimal_pad6 hus
  rw [f1, f2, f3, f4, f5, f6]

/-! order of texts -/

theorem digit_lt : ∀ c ∈ Spec.digits, ∀ d ∈ Spec.digits, Spec.digits.idxOf c < Spec.digits.idxOf d → c < d := by decide

theorem digit_inj : ∀ c ∈ Spec.digits, ∀ d ∈ Spec.digits, Spec.digits.idxOf c = Spec.digits.idxOf d → c = d := by decide

theorem decimal_lt_pow : ∀ {a : Str}, (∀ c ∈ a, c ∈ Spec.digits) → Spec.decimal a < 10 ^ a.length
  | [], _ => by simp [Spec.decimal]
  | c :: a, h => by
    have ih := decimal_lt_pow (a := a) (fun d hd => h d (by simp [hd]))
    have hc : Spec.digits.idxOf c < 10 := List.idxOf_lt_length_of_mem (h c (by simp))
    have := Nat.mul_le_mul_right (10 ^ a.length) (Nat.le_of_lt_succ hc)
    simp only [Spec.decimal, List.length_cons, Nat.pow_succ]
    omega

/-- Numerals of the same length: a smaller number has the smaller text, whatever follows. -/
theorem lt_of_decimal : ∀ {a b : Str}, (∀ c ∈ a, c ∈ Spec.digits) → (∀ c ∈ b, c ∈ Spec.digits) → a.length = b.length → Spec.decimal a < Spec.decimal b → ∀ x y : Str, a ++ x < b ++ y
  | [], [], _, _, _, h => by simp at h
  | c :: a, d :: b, ha, hb, hl, h => by
    intro x y
    have hlen : a.length = b.length := by simpa using hl
    have h1 := decimal_lt_pow (a := a) (fun e he => ha e (by simp [he]))
    have h2 := decimal_lt_pow (a := b) (fun e he => hb e (by simp [he]))
    simp only [Spec.decimal, hlen] at h h1
    rw [List.cons_append, List.cons_append, List.cons_lt_cons_iff]
    rcases Nat.lt_trichotomy (Spec.digits.idxOf c) (Spec.digits.idxOf d) with hc | hc | hc
    · exact .inl (digit_lt c (ha c (by simp)) d (hb d (by simp)) hc)
    · have := digit_inj c (ha c (by simp)) d (hb d (by simp)) hc
      subst this
      exact .inr ⟨rfl, lt_of_decimal (a := a) (b := b) (fun e he => ha e (by simp [he])) (fun e he => hb e (by simp [he])) hlen (by omega) x y⟩
    · have := Nat.mul_le_mul_right (10 ^ b.length) (Nat.succ_le_of_lt hc)
      simp only [Nat.succ_mul] at this
      omega

theorem lt_append (a : Str) {x y : Str} (h : x < y) : a ++ x < a ++ y := by
  induction a with
  | nil => exact h
  | cons c a ih => rw [List.cons_append, List.cons_append, List.cons_lt_cons_iff]; exact .inr ⟨rfl, ih⟩

theorem digitChar_mem : ∀ n, n < 10 → Char.ofNat ('0'.toNat + n) ∈ Spec.digits := by decide

theorem pad2_digits (n : Nat) : ∀ c ∈ pad2 n, c ∈ Spec.digits := by
  intro c hc
  obtain ⟨d, _, rfl⟩ := List.mem_map.1 hc
  exact digitChar_mem _ (Nat.mod_lt _ (by omega))

theorem pad6_digits (n : Nat) : ∀ c ∈ Logger.pad6 n, c ∈ Spec.digits := by
  intro c hc
  obtain ⟨d, _, rfl⟩ := List.mem_map.1 hc
  exact digitChar_mem _ (Nat.mod_lt _ (by omega))

theorem pad2_lt {n n' : Nat} (h : n < n') (h' : n' < 100) (x y : Str) : pad2 n ++ x < pad2 n' ++ y :=
  lt_of_decimal (pad2_digits n) (pad2_digits n') rfl (by rw [decimal_pad2 (by omega), decimal_pad2 h']; exact h) x y

theorem pad6_lt {n n' : Nat} (h : n < n') (h' : n' < 1000000) : Logger.pad6 n < Logger.pad6 n' := by
  have := lt_of_decimal (pad6_digits n) (pad6_digits n') rfl (by rw [decimal_pad6 (by omega), decimal_pad6 h']; exact h) [] []
  simpa using this

theorem year_lt {n n' : Nat} (h0 : 1000 ≤ n) (h : n < n') (h' : n' < 10000) (x y : Str) : Nat.toDigits 10 n ++ x < Nat.toDigits 10 n' ++ y := by
  have hl : ∀ k, 1000 ≤ k → k < 10000 → (Nat.toDigits 10 k).length = 4 := by
    intro k h1 h2
    have a := (Nat.length_toDigits_le_iff (b := 10) (n := k) (k := 4) (by omega) (by omega)).2 (by omega)
    have b := mt (Nat.length_toDigits_le_iff (b := 10) (n := k) (k := 3) (by omega) (by omega)).1 (by omega)
    omega
  exact lt_of_decimal (toDigits_digits n) (toDigits_digits n') (by rw [hl n h0 (by omega), hl n' (by omega) h']) (by rw [decimal_toDigits, decimal_toDigits]; exact h) x y

theorem text_lt (a b : Tm) (us us' : Nat) (hy0 : 1000 ≤ a.year) (hy : b.year < 10000) (hm : b.month < 100) (hd : b.day < 100) (hh : b.hour < 100) (hi : b.min < 100) (hs : b.sec < 100) (hu : us' < 1000000)
    (h : a.year < b.year ∨ a.year = b.year ∧ (a.month < b.month ∨ a.month = b.month ∧ (a.day < b.day ∨ a.day = b.day ∧ (a.hour < b.hour ∨ a.hour = b.hour ∧ (a.min < b.min ∨ a.min = b.min ∧
      (a.sec < b.sec ∨ a.sec = b.sec ∧ us < us')))))) : strftime a ++ '.' :: Logger.pad6 us < strftime b ++ '.' :: Logger.pad6 us' := by
  obtain ⟨y, m, d, hr, mi, s⟩ := a
  obtain ⟨y', m', d', hr', mi', s'⟩ := b
  simp only [strftime, List.append_assoc, List.cons_append] at h hy0 hy hm hd hh hi hs ⊢
  have sep : ∀ (c : Char) {x y : Str}, x < y → c :: x < c :: y := fun c x y h => lt_append [c] h
  rcases h with h | ⟨rfl, h⟩
  · exact year_lt hy0 h hy _ _
  refine lt_append _ (sep _ ?_)
  rcases h with h | ⟨rfl, h⟩
  · exact pad2_lt h hm _ _
  refine lt_append _ (sep _ ?_)
  rcases h with h | ⟨rfl, h⟩
  · exact pad2_lt h hd _ _
  refine lt_append _ (sep _ ?_)
  rcases h with h | ⟨rfl, h⟩
  · exact pad2_lt h hh _ _
  refine lt_append _ (sep _ ?_)
  rcases h with h | ⟨rfl, h⟩
  · exact pad2_lt h hi _ _
  refine lt_append _ (sep _ ?_)
  rcases h with h | ⟨rfl, h⟩
  · exact pad2_lt h hs _ _
  exact lt_append _ (sep _ (pad6_lt h hu))

theorem daysToYear_mono {y z : Nat} (h : y ≤ z) : daysToYear y ≤ daysToYear z := by
  simp only [daysToYear]
  omega

theorem monthOf_mono : ∀ (ls : List Nat) (m : Nat) {d d' : Nat}, d ≤ d' → (monthOf ls m d).1 ≤ (monthOf ls m d').1
  | [], _, _, _, _ => Nat.le_refl _
  | l :: ls, m, d, d', h => by
    have hm : ∀ (ls : List Nat) (m d : Nat), m ≤ (monthOf ls m d).1 := by
      intro ls
      induction ls with
      | nil => intro m d; exact Nat.le_refl _
      | cons a ls ih =>
        intro m d
        simp only [monthOf]
        split
        · exact Nat.le_refl _
        · have := ih (m + 1) (d - a); omega
    have ih := monthOf_mono ls (m + 1) (d := d - l) (d' := d' - l) (by omega)
    have := hm ls (m + 1) (d' - l)
    simp only [monthOf]
    split <;> split
    · exact Nat.le_refl _
    · simp only; omega
    · omega
    · exact ih

end Stamp

open Stamp Spec.Stamp

/-- The time in a line of the log, read as a date and a time of day, is the local time, to the microsecond. -/
theorem C134_local (off : Nat → Int) (t us : Nat) (hl : 0 ≤ t + off t) (hus : us < 1000000) : moment (stamp off t us) = (t + off t) * 1000000 + us := by
  simp only [stamp, localtime]
  generalize hL : (t + off t).toNat = l
  obtain ⟨h1, h2, h3⟩ := yearOf_ok (l / 86400 + 1) 1970 (l / 86400) (by omega) (by omega)
  obtain ⟨h4, h5, h6, h7⟩ := monthOf_ok h2
  rw [moment_text _ _ _ _ _ _ _ (by omega) (by omega) (by omega) (by omega) (by omega) hus]
  have h0 : daysToYear 1970 = 0 := by decide
  rw [h0] at h3
  generalize daysToYear (yearOf (l / 86400 + 1) 1970 (l / 86400)).1 = A at h3 ⊢
  omega

/-- Texts sort as the local times they stand for, up to the year 9999: the text of the earlier one is the smaller one, character by character. -/
theorem C134_order (off : Nat → Int) (t us t' us' : Nat) (hl : 0 ≤ t + off t) (hus : us < 1000000) (hus' : us' < 1000000)
    (hlt : (t + off t) * 1000000 + us < (t' + off t') * 1000000 + us') (hmax : t' + off t' < 253402300800) : stamp off t us < stamp off t' us' := by
  simp only [stamp, localtime]
  generalize hL : (t + off t).toNat = l
  generalize hL' : (t' + off t').toNat = l'
  obtain ⟨a1, a2, a3⟩ := yearOf_ok (l / 86400 + 1) 1970 (l / 86400) (by omega) (by omega)
  obtain ⟨b1, b2, b3⟩ := yearOf_ok (l' / 86400 + 1) 1970 (l' / 86400) (by omega) (by omega)
  generalize yearOf (l / 86400 + 1) 1970 (l / 86400) = p at a1 a2 a3 ⊢
  generalize yearOf (l' / 86400 + 1) 1970 (l' / 86400) = q at b1 b2 b3 ⊢
  obtain ⟨y, e⟩ := p
  obtain ⟨y', e'⟩ := q
  simp only at a1 a2 a3 b1 b2 b3 ⊢
  have h0 : daysToYear 1970 = 0 := by decide
  have h1 : daysToYear 10000 = 2932897 := by decide
  rw [h0] at a3 b3
  have hyy : y ≤ y' := by
    apply Nat.le_of_not_lt
    intro hc
    have := daysToYear_mono (y := y' + 1) (z := y) hc
    rw [daysToYear_succ] at this
    omega
  have hymax : y' < 10000 := by
    apply Nat.lt_of_not_le
    intro hc
    have := daysToYear_mono hc
    omega
  obtain ⟨c1, c2, c3, c4⟩ := monthOf_ok a2
  obtain ⟨d1, d2, d3, d4⟩ := monthOf_ok b2
  apply text_lt _ _ _ _ (by simp only; omega) hymax (by simp only; omega) (by simp only; omega) (by simp only; omega) (by simp only; omega) (by simp only; omega) hus'
  simp only
  rcases Nat.lt_or_eq_of_le hyy with hy | rfl
  · exact .inl hy
  refine .inr ⟨rfl, ?_⟩
  have hee : e ≤ e' := by omega
  have hmm := monthOf_mono (monthLens y) 1 hee
  rcases Nat.lt_or_eq_of_le hmm with hm | hm
  · exact .inl hm
  refine .inr ⟨hm, ?_⟩
  rw [hm] at c4
  omega

/-- So it is in the lines that Logger writes (C104), if localtime's buffer is not overwritten by another thread. -/
theorem C134_in_log (g : Logger.Cfg) (off : Nat → Int) (hg : g.sec = fun t => strftime (localtime off t)) (t us : Nat) (hl : 0 ≤ t + off t) (hus : us < 1000000) :
    moment (Logger.datetime g t us) = (t + off t) * 1000000 + us := by
  rw [← C134_local off t us hl hus, Logger.datetime, hg, stamp]

/-- C134, in full: from the time in a line of the log one can tell when it was written: no two moments have the same text, and the later moment has the later text. -/
def C134_statement : Prop :=
  ∀ (off : Nat → Int), (∀ t : Nat, 0 ≤ t + off t) → ∀ (t us t' us' : Nat), us < 1000000 → us' < 1000000 →
    (stamp off t us = stamp off t' us' → t = t' ∧ us = us') ∧ (t < t' → moment (stamp off t us) < moment (stamp off t' us'))

/-- The end of summer time: the hour after it has the texts of the hour before it, because the offset from UTC is not written. -/
theorem C134_violated : ¬ C134_statement := by
  intro h
  have := ((h (fun t => if t < 1635642000 then 7200 else 3600) (fun t => by split <;> omega) 1635640200 0 1635643800 0 (by omega) (by omega)).1 (by
    have e : localtime (fun t => if t < 1635642000 then 7200 else 3600) 1635640200 = localtime (fun t => if t < 1635642000 then 7200 else 3600) 1635643800 := rfl
    simp only [stamp, e])).1
  omega

/-- C134 where the offset from UTC does not change: the text determines the moment, and later moments have later texts. -/
theorem C134_moment_partial (off : Int) (t us t' us' : Nat) (hl : 0 ≤ t + off) (hl' : 0 ≤ t' + off) (hus : us < 1000000) (hus' : us' < 1000000) :
    (stamp (fun _ => off) t us = stamp (fun _ => off) t' us' ↔ t = t' ∧ us = us') ∧
    (moment (stamp (fun _ => off) t us) < moment (stamp (fun _ => off) t' us') ↔ t < t' ∨ (t = t' ∧ us < us')) := by
  have h1 := C134_local (fun _ => off) t us hl hus
  have h2 := C134_local (fun _ => off) t' us' hl' hus'
  refine ⟨⟨fun h => ?_, fun h => by rw [h.1, h.2]⟩, ?_⟩
  · rw [h, h2] at h1
    omega
  · rw [h1, h2]
    omega

/-- The hypotheses of C134_order: the last second of 1999 and the first of 2000. -/
example : stamp (fun _ => 0) 946684799 999999 < stamp (fun _ => 0) 946684800 0 := C134_order _ _ _ _ _ (by omega) (by omega) (by omega) (by omega) (by omega)

example : stamp (fun _ => 3600) 1709208000 42 = "2024-02-29 13:00:00.000042".toList := by decide +kernel

example : moment "2024-02-29 13:00:00.000042".toList = 1709211600000042 := by decide +kernel

end Salticidae
