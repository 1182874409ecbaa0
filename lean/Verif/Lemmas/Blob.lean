import Verif.Lemmas.Stream
import Verif.Model.Blob
namespace Salticidae.Blob

theorem or_shift_eq {w : Nat} (hw : 0 < w) (x : BitVec (8 * w)) (b : Byte) :
    ((x <<< 8) ||| b.setWidth (8 * w)).toNat = (x.toNat * 256 + b.toNat) % 2 ^ (8 * w) := by
  have h1 : (x <<< 8) &&& b.setWidth (8 * w) = 0#(8*w) := by
    ext i hi
    simp only [BitVec.getElem_and, BitVec.getElem_shiftLeft, BitVec.getElem_setWidth,
      BitVec.getElem_zero]
    by_cases h : i < 8
    · simp [h]
    · simp [h]
      intro _
      exact BitVec.getLsbD_of_ge b i (by omega)
  rw [← BitVec.add_eq_or_of_and_eq_zero _ _ h1, BitVec.toNat_add, BitVec.toNat_shiftLeft,
    BitVec.toNat_setWidth]
  have hb := b.isLt
  have h2 : b.toNat % 2 ^ (8 * w) = b.toNat := Nat.mod_eq_of_lt (by
    calc b.toNat < 2 ^ 8 := hb
      _ ≤ 2 ^ (8 * w) := Nat.pow_le_pow_right (by omega) (by omega))
  rw [h2, Nat.mod_add_mod, Nat.shiftLeft_eq]

theorem foldl_word {w : Nat} (hw : 0 < w) (rev : List Byte) (x : BitVec (8 * w)) :
    (rev.foldl (fun (x : BitVec (8 * w)) b => (x <<< 8) ||| b.setWidth (8 * w)) x).toNat
      = (x.toNat * 256 ^ rev.length + Spec.leDec rev.reverse) % 2 ^ (8 * w) := by
  induction rev generalizing x with
  | nil => simp [Spec.leDec, Nat.mod_eq_of_lt x.isLt]
  | cons b rev ih =>
    simp only [List.foldl_cons, ih, or_shift_eq hw, List.length_cons, List.reverse_cons,
      Spec.leDec_append, List.length_reverse]
    simp only [Spec.leDec, Nat.mul_zero, Nat.add_zero]
    rw [Nat.add_mod, Nat.mod_mul_mod, ← Nat.add_mod]
    congr 1
    rw [Nat.add_mul, Nat.pow_succ, Nat.mul_assoc, Nat.mul_comm 256, Nat.mul_comm b.toNat]
    omega

theorem loadWord_toNat {w : Nat} (hw : 0 < w) (rev : List Byte) (hl : rev.length = w) :
    (loadWord w rev).toNat = Spec.leDec rev.reverse := by
  rw [loadWord, foldl_word hw]
  have := Spec.leDec_lt rev.reverse
  rw [Spec.pow_256, List.length_reverse, hl] at this
  simp [Nat.mod_eq_of_lt this]

/-- Little-endian bytes of a list of words. -/
def wordBytes {w : Nat} (ws : List (BitVec (8 * w))) : List Byte :=
  ws.flatMap fun x => Spec.leEnc w x.toNat

@[simp] theorem wordBytes_cons {w : Nat} (x : BitVec (8 * w)) (ws) :
    wordBytes (x :: ws) = Spec.leEnc w x.toNat ++ wordBytes ws := by simp [wordBytes]

@[simp] theorem wordBytes_nil {w : Nat} : wordBytes ([] : List (BitVec (8 * w))) = [] := rfl

@[simp] theorem wordBytes_length {w : Nat} (ws : List (BitVec (8 * w))) :
    (wordBytes ws).length = w * ws.length := by
  induction ws with
  | nil => rfl
  | cons x ws ih => simp [ih, Nat.mul_add]; omega

theorem loadLoop_bytes {w : Nat} (hw : 0 < w) (n : Nat) (rev : List Byte) (acc)
    (hl : rev.length = w * n) :
    wordBytes (loadLoop w n rev acc) = rev.reverse ++ wordBytes acc ∧
    (loadLoop w n rev acc).length = n + acc.length := by
  induction n generalizing rev acc with
  | zero =>
    have : rev = [] := List.length_eq_zero_iff.mp (by simpa using hl)
    subst this; simp [loadLoop]
  | succ n ih =>
    have hl' : (rev.take w).length = w := by simp [hl, Nat.mul_add]
    have := ih (rev.drop w) (loadWord w (rev.take w) :: acc) (by simp [hl, Nat.mul_add])
    refine ⟨?_, ?_⟩
    · simp only [loadLoop]
      rw [this.1, wordBytes_cons, loadWord_toNat hw _ hl']
      have h2 := Spec.leEnc_leDec (rev.take w).reverse
      rw [List.length_reverse, hl'] at h2
      rw [h2, ← List.append_assoc, ← List.reverse_append, List.take_append_drop]
    · simp only [loadLoop, this.2, List.length_cons]; omega

theorem load_bytes {w : Nat} (hw : 0 < w) (n : Nat) (arr : List Byte) (hl : arr.length = w * n) :
    wordBytes (load w n arr).data = arr ∧ (load w n arr).data.length = n := by
  have := loadLoop_bytes hw n arr.reverse [] (by simpa using hl)
  simpa [load] using this

theorem serialize_fold {w : Nat} (e : Endian) (ws : List (BitVec (8 * w))) (s : DataStream) :
    ws.foldl (fun s x => s.putInt e (htole e x)) s
      = { s with buffer := s.buffer ++ wordBytes ws } := by
  induction ws generalizing s with
  | nil => simp
  | cons x ws ih =>
    rw [List.foldl_cons, ih]
    simp [DataStream.putInt, memEnc_htole]

theorem serialize_loaded {w : Nat} (e : Endian) (b : Blob w) (h : b.loaded = true) (s : DataStream) :
    b.serialize e s = { s with buffer := s.buffer ++ wordBytes b.data } := by
  simp [serialize, h, serialize_fold]

theorem leEnc_zero (w : Nat) : Spec.leEnc w 0 = List.replicate w 0 := by
  induction w with
  | zero => rfl
  | succ w ih => simp [Spec.leEnc, ih, List.replicate_succ]

theorem serialize_null {w : Nat} (e : Endian) (b : Blob w) (h : b.loaded = false) (s : DataStream) :
    b.serialize e s = { s with buffer := s.buffer ++ List.replicate (w * b.data.length) 0 } := by
  simp only [serialize, h, Bool.false_eq_true, if_false]
  have : ∀ (l : List (BitVec (8 * w))) (s : DataStream),
      l.foldl (fun s _ => s.putInt e (htole e (0 : BitVec (8 * w)))) s
        = { s with buffer := s.buffer ++ List.replicate (w * l.length) 0 } := by
    intro l
    induction l with
    | nil => simp
    | cons x l ih =>
      intro s
      rw [List.foldl_cons, ih]
      simp only [DataStream.putInt, memEnc_htole]
      have h0 : (0 : BitVec (8 * w)).toNat = 0 := by simp
      rw [h0, leEnc_zero, List.append_assoc, List.replicate_append_replicate]
      simp only [List.length_cons, Nat.mul_add, Nat.mul_one, Nat.add_comm]
  exact this _ _

theorem eqLoop_iff {w : Nat} (a b : List (BitVec (8 * w))) (hl : a.length = b.length) :
    eqLoop a b = true ↔ a = b := by
  induction a generalizing b with
  | nil => cases b with
    | nil => simp [eqLoop]
    | cons => simp at hl
  | cons x a ih => cases b with
    | nil => simp at hl
    | cons y b =>
      simp only [eqLoop]
      by_cases h : x = y
      · simp [h, ih b (by simpa using hl)]
      · simp [h]

theorem wordBytes_inj {w : Nat} (a b : List (BitVec (8 * w))) (hl : a.length = b.length) :
    wordBytes a = wordBytes b ↔ a = b := by
  refine ⟨?_, fun h => by rw [h]⟩
  induction a generalizing b with
  | nil => cases b with
    | nil => simp
    | cons => simp at hl
  | cons x a ih => cases b with
    | nil => simp at hl
    | cons y b =>
      intro h
      simp only [wordBytes_cons] at h
      obtain ⟨h1, h2⟩ := List.append_inj h (by simp)
      have h3 := congrArg Spec.leDec h1
      simp only [Spec.leDec_leEnc, Spec.pow_256, Nat.mod_eq_of_lt x.isLt,
        Nat.mod_eq_of_lt y.isLt] at h3
      rw [BitVec.eq_of_toNat_eq h3, ih b (by simpa using hl) h2]

theorem wordBytes_append {w : Nat} (a b : List (BitVec (8 * w))) :
    wordBytes (a ++ b) = wordBytes a ++ wordBytes b := by simp [wordBytes]

theorem leDec_word {w : Nat} (x : BitVec (8 * w)) : Spec.leDec (Spec.leEnc w x.toNat) = x.toNat := by
  rw [Spec.leDec_leEnc, Spec.pow_256, Nat.mod_eq_of_lt x.isLt]

/-- The most-significant-word-first comparison is the numeric one. -/
theorem ltLoop_iff {w : Nat} (a b : List (BitVec (8 * w))) (hl : a.length = b.length) :
    ltLoop a b = true ↔ Spec.leDec (wordBytes a.reverse) < Spec.leDec (wordBytes b.reverse) := by
  fun_induction ltLoop a b with
  | case1 x y => simp [leDec_word]
  | case2 x xs y ys hne hxy =>
    simp only [List.length_cons, Nat.add_right_cancel_iff] at hl
    simp only [List.reverse_cons, wordBytes_append, wordBytes_cons, wordBytes_nil,
      List.append_nil, Spec.leDec_append, leDec_word, wordBytes_length, List.length_reverse, hl]
    have h1 := Spec.leDec_lt (wordBytes xs.reverse)
    have h2 := Spec.leDec_lt (wordBytes ys.reverse)
    simp only [wordBytes_length, List.length_reverse, hl] at h1 h2
    have hne' : x.toNat ≠ y.toNat := fun h => hxy (BitVec.eq_of_toNat_eq h)
    simp only [decide_eq_true_eq]
    generalize 256 ^ (w * ys.length) = P at *
    constructor
    · intro h
      have := Nat.mul_le_mul_left P (Nat.succ_le_of_lt h)
      rw [Nat.succ_eq_add_one, Nat.mul_add] at this
      omega
    · intro h
      by_cases h' : x.toNat < y.toNat
      · exact h'
      · exfalso
        have hlt : y.toNat < x.toNat := by omega
        have := Nat.mul_le_mul_left P (Nat.succ_le_of_lt hlt)
        rw [Nat.succ_eq_add_one, Nat.mul_add] at this
        omega
  | case3 x xs y ys hne hxy ih =>
    have hxy : x = y := by simpa using hxy
    subst hxy
    simp only [List.length_cons, Nat.add_right_cancel_iff] at hl
    rw [ih hl]
    simp only [List.reverse_cons, wordBytes_append, wordBytes_cons, wordBytes_nil,
      List.append_nil, Spec.leDec_append, leDec_word, wordBytes_length, List.length_reverse, hl]
    omega
  | case4 a b h1 h2 =>
    cases a with
    | nil => cases b with
      | nil => simp
      | cons => simp at hl
    | cons x a => cases b with
      | nil => simp at hl
      | cons y b => exact absurd rfl (fun h => h2 x a y b h rfl)

theorem unserLoop_ok {w : Nat} (e : Endian) (ws : List (BitVec (8 * w))) (s : DataStream) (hs : s.Wf)
    {rest : List Byte} (hu : s.unread = wordBytes ws ++ rest) :
    ∃ t, unserLoop e w ws.length s = (ws, t, true) ∧ t.Wf ∧ t.unread = rest := by
  induction ws generalizing s with
  | nil => exact ⟨s, rfl, hs, by simpa using hu⟩
  | cons x ws ih =>
    have hle : w ≤ s.unread.length := by rw [hu]; simp
    have h1 := DataStream.getInt_ok hs (e := e) hle
    have h2 := DataStream.wf_advance hs hle
    have hu2 : ({ s with offset := s.offset + w } : DataStream).unread = wordBytes ws ++ rest := by
      rw [DataStream.unread_advance, hu]; simp
    obtain ⟨t, ht, hw, hr⟩ := ih _ h2 hu2
    refine ⟨t, ?_, hw, hr⟩
    have hx : letoh e (memDec e w (s.unread.take w)) = x := by
      have h3 : s.unread.take w = Spec.leEnc w x.toNat := by rw [hu]; simp
      rw [h3]
      have := letoh_memDec e (Spec.leEnc w x.toNat)
      rw [Spec.leEnc_length, leDec_word] at this
      rw [this]; simp
    simp only [List.length_cons, unserLoop, h1, ht, hx]

theorem unserLoop_short {w : Nat} (hw2 : w < 2 ^ 63) (e : Endian) (n : Nat)
    (s : DataStream) (hs : s.Wf) (hu : s.unread.length < w * n) :
    (unserLoop e w n s).2.2 = false := by
  induction n generalizing s with
  | zero => omega
  | succ n ih =>
    by_cases hle : w ≤ s.unread.length
    · have h1 := DataStream.getInt_ok hs (e := e) hle
      have := ih _ (DataStream.wf_advance hs hle) (by
        rw [DataStream.unread_advance, List.length_drop]
        rw [Nat.mul_add] at hu; omega)
      simp only [unserLoop, h1, this]
    · simp only [unserLoop, DataStream.getInt_short hs (e := e) hw2 (by omega)]

end Salticidae.Blob
