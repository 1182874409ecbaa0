import Verif.Lemmas.Blob
/-
Property theorems for Blob / uint256_t (C08-C10).  `w` = bytes per word, `n` = words.
-/
namespace Salticidae
open Blob

/-- C08.  A blob built from `w * n` bytes exists exactly for arrays of that length, is not null,
serialises to exactly these bytes on a host of either byte order (appended to whatever the stream
held), and unserialising from any stream that starts with these bytes, into any blob object of the
same type, gives an equal, non-null blob and consumes exactly these bytes. -/
theorem C08_blob_roundtrip (w n : Nat) (hw : 0 < w) (arr : List Byte) (e e' : Endian) :
    (arr.length ≠ w * n → Blob.ofBytes w n arr = none) ∧
    (arr.length = w * n → ∃ b, Blob.ofBytes w n arr = some b ∧ b.isNull = false ∧
      b.toBytes e = arr ∧
      (∀ s, b.serialize e s = s.putData arr) ∧
      ∀ (old : Blob w) (s : DataStream) (rest : List Byte), old.data.length = n → s.Wf →
        s.unread = arr ++ rest →
        ∃ t, old.unserialize e' s = (b, t, true) ∧ t.unread = rest) := by
  constructor
  · intro h; simp [Blob.ofBytes, h]
  · intro h
    obtain ⟨h1, h2⟩ := load_bytes hw n arr h
    refine ⟨load w n arr, by simp [Blob.ofBytes, h], rfl, ?_, ?_, ?_⟩
    · simp [toBytes, serialize_loaded e _ (show (load w n arr).loaded = true from rfl), h1,
        DataStream.empty]
    · intro s
      simp [serialize_loaded e _ (show (load w n arr).loaded = true from rfl), h1,
        DataStream.putData]
    · intro old s rest ho hs hu
      rw [← h1] at hu
      obtain ⟨t, ht, hwf, hr⟩ := unserLoop_ok e' _ s hs hu
      refine ⟨t, ?_, hr⟩
      rw [h2] at ht
      simp only [unserialize, ho, ht]
      rw [List.drop_of_length_le (by omega)]
      simp [load]

/-- C08, error branch: unserialising from a stream that is too short throws. -/
theorem C08_blob_short (w : Nat) (hw2 : w < 2 ^ 63) (old : Blob w) (e : Endian)
    (s : DataStream) (hs : s.Wf) (hu : s.unread.length < w * old.data.length) :
    (old.unserialize e s).2.2 = false := by
  simp only [unserialize]
  exact unserLoop_short hw2 e _ s hs hu

example : (Blob.ofBytes 2 2 [1, 2, 3, 4]) = some ⟨[0x0201#16, 0x0403#16], true⟩ := by decide
example : ((Blob.ofBytes 2 2 [1, 2, 3, 4]).map (Blob.toBytes .big)) = some [1, 2, 3, 4] := by decide

/-- The number a loaded blob stands for: its serialised bytes read as a little-endian number. -/
def Blob.value {w : Nat} (b : Blob w) : Nat := Spec.leDec (b.toBytes .little)

/-- C09.  For set blobs of the same size, `<` is the order of the values, `==` holds exactly when
the serialised bytes (hence the values) agree, `!=` is its negation, and equal blobs have equal
hashes.  Since `<` on numbers is a strict total order, so is `<` on blobs (`C09_blob_order_laws`). -/
theorem C09_blob_order (w : Nat) (a b : Blob w) (hl : a.data.length = b.data.length)
    (ha : a.isNull = false) (hb : b.isNull = false) :
    (a.lt b = true ↔ a.value < b.value) ∧
    (a.eq b = true ↔ a.value = b.value) ∧
    (a.eq b = true ↔ a.toBytes .little = b.toBytes .little) ∧
    (a.ne b = true ↔ ¬ a.eq b = true) ∧
    (a.eq b = true → a.cheapHash = b.cheapHash) := by
  have ha' : a.loaded = true := by simpa [isNull] using ha
  have hb' : b.loaded = true := by simpa [isNull] using hb
  have va : a.toBytes .little = wordBytes a.data := by
    simp [toBytes, serialize_loaded _ _ ha', DataStream.empty]
  have vb : b.toBytes .little = wordBytes b.data := by
    simp [toBytes, serialize_loaded _ _ hb', DataStream.empty]
  have heq : a.eq b = true ↔ a.toBytes .little = b.toBytes .little := by
    rw [va, vb, wordBytes_inj _ _ hl]; exact eqLoop_iff _ _ hl
  refine ⟨?_, ?_, heq, by simp [ne], ?_⟩
  · simp only [Blob.value, va, vb, lt]
    rw [ltLoop_iff _ _ (by simpa using hl)]
    simp
  · rw [heq]
    constructor
    · intro h; simp [Blob.value, h]
    · intro h
      exact Spec.leDec_inj (by rw [va, vb]; simp [hl]) h
  · intro h
    have := (eqLoop_iff _ _ hl).mp h
    simp [cheapHash, this]

/-- C09, hash: it is the number that the first word of the serialised bytes stands for, as a size_t (all of the value if the blob is one word). -/
theorem C09_blob_hash (w : Nat) (a : Blob w) (ha : a.isNull = false) (hn : a.data ≠ []) :
    a.cheapHash = some (Spec.leDec ((a.toBytes .little).take w) % 2 ^ 64) := by
  have ha' : a.loaded = true := by simpa [isNull] using ha
  have va : a.toBytes .little = wordBytes a.data := by
    simp [toBytes, serialize_loaded _ _ ha', DataStream.empty]
  cases hd : a.data with
  | nil => exact absurd hd hn
  | cons x xs =>
    rw [va, hd, wordBytes_cons, List.take_append_of_le_length (by simp), List.take_of_length_le (by simp), leDec_word]
    simp [cheapHash, hd, sizeMod]

example : (Blob.ofBytes 2 2 [1, 2, 3, 4]).map Blob.cheapHash = some (some 0x0201) := by decide

/-- C09, order laws: irreflexive, transitive, and exactly one of `a < b`, `a == b`, `b < a`. -/
theorem C09_blob_order_laws (w : Nat) (a b c : Blob w) (hab : a.data.length = b.data.length)
    (hbc : b.data.length = c.data.length)
    (ha : a.isNull = false) (hb : b.isNull = false) (hc : c.isNull = false) :
    a.lt a = false ∧
    (a.lt b = true → b.lt c = true → a.lt c = true) ∧
    ((a.lt b = true ∧ a.eq b = false ∧ b.lt a = false) ∨
     (a.lt b = false ∧ a.eq b = true ∧ b.lt a = false) ∨
     (a.lt b = false ∧ a.eq b = false ∧ b.lt a = true)) := by
  have h1 := C09_blob_order w a b hab ha hb
  have h2 := C09_blob_order w b a hab.symm hb ha
  have h3 := C09_blob_order w b c hbc hb hc
  have h4 := C09_blob_order w a c (hab.trans hbc) ha hc
  have h5 := C09_blob_order w a a rfl ha ha
  refine ⟨?_, ?_, ?_⟩
  · rw [Bool.eq_false_iff, Ne, h5.1]; omega
  · rw [h1.1, h3.1, h4.1]; omega
  · simp only [Bool.eq_false_iff, Ne, h1.1, h1.2.1, h2.1]
    omega

example : (Blob.mk (w := 1) [1, 2] true).lt (Blob.mk [2, 1] true) = false ∧
    (Blob.mk (w := 1) [2, 1] true).lt (Blob.mk [1, 2] true) = true ∧
    (Blob.mk (w := 1) [1, 2] true).isNull = false := by decide

/-- The full statement of C10. -/
def C10_statement : Prop :=
  (∀ (w n : Nat) (b : Blob w), 0 < w → b.data.length = n → b.isNull = false →
    (Blob.null w n).eq b = false) ∧
  (∀ (w n : Nat) (e : Endian) (b t : Blob w) (s : DataStream), 0 < w → 0 < n → b.data.length = n →
    (Blob.null w n).unserialize e (b.serialize e DataStream.empty) = (t, s, true) →
    t.isNull = b.isNull)

/-- C10 is violated, in both parts: an unset blob compares equal to the all-zero blob, and an unset
blob becomes a set one by going through serialisation. -/
theorem C10_violated :
    (Blob.null 8 4).eq ⟨List.replicate 4 0, true⟩ = true ∧
    (Blob.null 8 4).isNull = true ∧
    ((Blob.null 8 4).unserialize .little ((Blob.null 8 4).serialize .little DataStream.empty)).1.isNull
      = false ∧
    ¬ C10_statement := by
  refine ⟨by decide, rfl, by decide, ?_⟩
  intro h
  have := h.1 8 4 ⟨List.replicate 4 0, true⟩ (by decide) (by decide) rfl
  revert this
  decide

/-- C10, proved part: an unset blob is null and differs (by `==`) from every set blob whose value is
not zero.  Missing: telling it from the all-zero blob, and null surviving serialisation. -/
theorem C10_null_partial (w n : Nat) (b : Blob w) (hb : b.data.length = n)
    (hn : b.isNull = false) (hv : b.value ≠ 0) :
    (Blob.null w n).isNull = true ∧ (Blob.null w n).eq b = false := by
  refine ⟨rfl, ?_⟩
  rw [Bool.eq_false_iff]
  intro h
  have h1 := (eqLoop_iff _ _ (by simp [Blob.null, hb])).mp h
  have hb' : b.loaded = true := by simpa [isNull] using hn
  have vb : b.toBytes .little = wordBytes b.data := by
    simp [toBytes, serialize_loaded _ _ hb', DataStream.empty]
  apply hv
  rw [Blob.value, vb, ← h1, Blob.null]
  have : ∀ n, Spec.leDec (wordBytes (List.replicate n (0 : BitVec (8 * w)))) = 0 := by
    intro n
    induction n with
    | zero => rfl
    | succ n ih =>
      rw [List.replicate_succ, wordBytes_cons, Spec.leDec_append, ih, leDec_word]; simp
  exact this n

example : (Blob.mk (w := 8) [0, 5, 0, 0] true).value ≠ 0 := by decide

end Salticidae
