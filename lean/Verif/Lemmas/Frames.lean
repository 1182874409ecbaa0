import Verif.Lemmas.Bytes
import Verif.Spec.Frames
namespace Salticidae.Spec

theorem enc_length {ow max : Nat} {f : Frame} (h : f.Valid ow max) :
    f.enc.length = 12 + ow + f.payload.length := by
  simp only [Frame.enc, List.length_append, leEnc_length, h.1]; omega

theorem leDec_leEnc4 {n : Nat} (h : n < 2 ^ 32) : leDec (leEnc 4 n) = n := by
  rw [leDec_leEnc, pow_256, Nat.mod_eq_of_lt (by omega)]

theorem frameLen_enc {ow max : Nat} {f : Frame} (h : f.Valid ow max) (rest : List Byte) :
    frameLen ow (f.enc ++ rest) = f.payload.length := by
  simp only [frameLen, Frame.enc, List.append_assoc]
  rw [← List.append_assoc, List.drop_left' (by simp [h.1]), List.take_left' (by simp),
    leDec_leEnc4 h.2.2.2.1]

theorem frameOf_enc {ow max : Nat} {f : Frame} (h : f.Valid ow max) (rest : List Byte) :
    frameOf ow (f.enc ++ rest) = f := by
  simp only [frameOf, frameLen_enc h]
  have e1 : (f.enc ++ rest).take 4 = leEnc 4 f.magic := by
    simp only [Frame.enc, List.append_assoc]; rw [List.take_left' (by simp)]
  have e2 : ((f.enc ++ rest).drop 4).take ow = f.opcode := by
    simp only [Frame.enc, List.append_assoc]; rw [List.drop_left' (by simp), List.take_left' h.1]
  have e3 : ((f.enc ++ rest).drop (8 + ow)).take 4 = leEnc 4 f.checksum := by
    simp only [Frame.enc, List.append_assoc]
    rw [← List.append_assoc, ← List.append_assoc, List.drop_left' (by simp [h.1]; omega),
      List.take_left' (by simp)]
  have e4 : ((f.enc ++ rest).drop (12 + ow)).take f.payload.length = f.payload := by
    simp only [Frame.enc, List.append_assoc]
    rw [← List.append_assoc, ← List.append_assoc, ← List.append_assoc,
      List.drop_left' (by simp [h.1]; omega), List.take_left' rfl]
  rw [e1, e2, e3, e4, leDec_leEnc4 h.2.1, leDec_leEnc4 h.2.2.1]

theorem split_enc {ow max : Nat} {f : Frame} (h : f.Valid ow max) (rest : List Byte) :
    split ow max (f.enc ++ rest) = (f :: (split ow max rest).1, (split ow max rest).2) := by
  have hl := enc_length h
  rw [split]
  simp only [frameLen_enc h, List.length_append, hl, frameOf_enc h]
  rw [if_neg (by omega), if_neg (by have := h.2.2.2.2; omega), if_neg (by omega)]
  rw [List.drop_left' (by omega)]

theorem split_encs {ow max : Nat} (fs : List Frame) (h : ∀ f ∈ fs, f.Valid ow max)
    (rest : List Byte) :
    split ow max (fs.flatMap Frame.enc ++ rest)
      = (fs ++ (split ow max rest).1, (split ow max rest).2) := by
  induction fs with
  | nil => simp
  | cons f fs ih =>
    rw [List.flatMap_cons, List.append_assoc, split_enc (h f (by simp)),
      ih (fun x hx => h x (by simp [hx]))]
    simp

theorem split_short {ow max : Nat} {bs : List Byte} (h : bs.length < 12 + ow) :
    split ow max bs = ([], false) := by
  rw [split, if_pos h]

/-- A prefix of a sequence of frames splits into a prefix of the sequence. -/
theorem split_prefix {ow max : Nat} (fs : List Frame) (h : ∀ f ∈ fs, f.Valid ow max) (bs : List Byte)
    (hp : bs <+: fs.flatMap Frame.enc) : (split ow max bs).1 <+: fs ∧ (split ow max bs).2 = false := by
  induction fs generalizing bs with
  | nil =>
    simp only [List.flatMap_nil, List.prefix_nil] at hp
    subst hp
    rw [split_short (by simp; omega)]
    simp
  | cons f fs ih =>
    rw [List.flatMap_cons] at hp
    have hf := h f (by simp)
    have hl := enc_length hf
    by_cases hlen : f.enc.length ≤ bs.length
    · have h1 : f.enc <+: bs := List.prefix_of_prefix_length_le (List.prefix_append _ _) hp hlen
      obtain ⟨bs', rfl⟩ := h1
      have h2 : bs' <+: fs.flatMap Frame.enc := (List.prefix_append_right_inj _).mp hp
      obtain ⟨h3, h4⟩ := ih (fun x hx => h x (by simp [hx])) bs' h2
      rw [split_enc hf]
      exact ⟨by simpa using h3, h4⟩
    · have h1 : bs <+: f.enc := List.prefix_of_prefix_length_le hp (List.prefix_append _ _) (by omega)
      rw [split]
      split
      · simp
      · rename_i hs
        have h2 : frameLen ow bs = f.payload.length := by
          obtain ⟨t, ht⟩ := h1
          have := frameLen_enc hf []
          rw [List.append_nil, ← ht] at this
          rw [← this]
          simp only [frameLen]
          rw [List.drop_append_of_le_length (by omega), List.take_append_of_le_length (by simp; omega)]
        rw [h2, if_neg (by have := hf.2.2.2.2; omega), if_pos (by omega)]
        simp

end Salticidae.Spec
