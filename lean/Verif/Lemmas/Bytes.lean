import Verif.Spec.Bytes
namespace Salticidae.Spec

@[simp] theorem leEnc_length (w n : Nat) : (leEnc w n).length = w := by
  induction w generalizing n with
  | zero => rfl
  | succ w ih => simp [leEnc, ih]

theorem leDec_leEnc (w n : Nat) : leDec (leEnc w n) = n % 256 ^ w := by
  induction w generalizing n with
  | zero => simp [leEnc, leDec, Nat.mod_one]
  | succ w ih =>
    simp only [leEnc, leDec, ih, BitVec.toNat_ofNat]
    rw [Nat.pow_succ (n := 256), Nat.mul_comm (256 ^ w) 256, Nat.mod_mul]

theorem leDec_lt (bs : List Byte) : leDec bs < 256 ^ bs.length := by
  induction bs with
  | nil => simp [leDec]
  | cons b bs ih =>
    simp only [leDec, List.length_cons, Nat.pow_succ]
    have := b.isLt
    omega

theorem leEnc_leDec (bs : List Byte) : leEnc bs.length (leDec bs) = bs := by
  induction bs with
  | nil => rfl
  | cons b bs ih =>
    simp only [leDec, List.length_cons, leEnc]
    have hb := b.isLt
    have h1 : (b.toNat + 256 * leDec bs) / 256 = leDec bs := by omega
    have h2 : BitVec.ofNat 8 (b.toNat + 256 * leDec bs) = b := by
      apply BitVec.eq_of_toNat_eq
      simp only [BitVec.toNat_ofNat]
      omega
    rw [h1, h2, ih]

theorem leDec_inj {a b : List Byte} (hl : a.length = b.length) (h : leDec a = leDec b) : a = b := by
  rw [← leEnc_leDec a, ← leEnc_leDec b, hl, h]

theorem pow_256 (w : Nat) : 256 ^ w = 2 ^ (8 * w) := by
  rw [Nat.pow_mul]

theorem leDec_append (a b : List Byte) : leDec (a ++ b) = leDec a + 256 ^ a.length * leDec b := by
  induction a with
  | nil => simp [leDec]
  | cons x a ih =>
    simp only [List.cons_append, leDec, ih, List.length_cons, Nat.pow_succ]
    rw [Nat.mul_add, Nat.mul_comm (256 ^ a.length) 256, Nat.mul_assoc, Nat.add_assoc]

theorem hexVal_hexDigit : ∀ n, n < 16 → hexVal (hexDigit n) = some n := by decide
theorem hexVal_upper : ∀ n, n < 16 → hexVal (hexDigit n).toUpper = some n := by decide

theorem hexVal_lt {c : Char} {v : Nat} (h : hexVal c = some v) : v < 16 := by
  simp only [hexVal] at h
  split at h
  · rename_i hc; cases h; have := hc.2; simp only [Char.le_def, UInt32.le_iff_toNat_le] at this
    simp only [Char.toNat]; have h9 : ('9'.val.toNat) = 57 := rfl
    have h0 : ('0'.val.toNat) = 48 := rfl
    omega
  · split at h
    · rename_i hc; cases h; have := hc.2; simp only [Char.le_def, UInt32.le_iff_toNat_le] at this
      simp only [Char.toNat]; have h9 : ('f'.val.toNat) = 102 := rfl
      have h0 : ('a'.val.toNat) = 97 := rfl
      omega
    · split at h
      · rename_i hc; cases h; have := hc.2; simp only [Char.le_def, UInt32.le_iff_toNat_le] at this
        simp only [Char.toNat]; have h9 : ('F'.val.toNat) = 70 := rfl
        have h0 : ('A'.val.toNat) = 65 := rfl
        omega
      · cases h

end Salticidae.Spec
