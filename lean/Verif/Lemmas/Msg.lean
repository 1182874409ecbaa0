import Verif.Lemmas.Blob
import Verif.Model.Msg
namespace Salticidae.Msg

/-- The header bytes of a message as `serialize` writes them. -/
def headerBytes (e : Endian) (m : Msg ow) : List Byte :=
  Spec.leEnc 4 m.magic.toNat ++ memEnc e m.opcode ++ Spec.leEnc 4 m.length.toNat
    ++ Spec.leEnc 4 m.checksum.toNat

@[simp] theorem headerBytes_length (e : Endian) (m : Msg ow) :
    (headerBytes e m).length = headerSize ow := by
  simp [headerBytes, headerSize]; omega

theorem serialize_eq (e : Endian) (m : Msg ow) : m.serialize e = headerBytes e m ++ m.payload := by
  simp [serialize, headerBytes, DataStream.putInt, DataStream.putData, memEnc_htole, DataStream.empty]

theorem letoh_leEnc4 (e : Endian) (v : BitVec (8 * 4)) :
    letoh e (memDec e 4 (Spec.leEnc 4 v.toNat)) = v := by
  have := letoh_memDec e (Spec.leEnc 4 v.toNat)
  rw [Spec.leEnc_length, Blob.leDec_word] at this
  rw [this]; simp

theorem getInt_app {s : DataStream} (hs : s.Wf) (e : Endian) {w : Nat} {a rest : List Byte}
    (ha : a.length = w) (hu : s.unread = a ++ rest) :
    ∃ t, s.getInt e w = .ok t (memDec e w a) ∧ t.Wf ∧ t.unread = rest := by
  have hle : w ≤ s.unread.length := by rw [hu]; simp [ha]
  refine ⟨_, DataStream.getInt_ok hs (e := e) hle |>.trans ?_, DataStream.wf_advance hs hle, ?_⟩
  · rw [hu, List.take_left' ha]
  · rw [DataStream.unread_advance, hu, List.drop_left' ha]

/-- Parsing a header. -/
theorem ofHeader_ok {s : DataStream} (hs : s.Wf) (e : Endian) (m : Msg ow) {rest : List Byte}
    (hu : s.unread = headerBytes e m ++ rest) :
    ofHeader e ow s = some ⟨m.magic, m.opcode, m.length, m.checksum, [], true⟩ := by
  simp only [headerBytes, List.append_assoc] at hu
  obtain ⟨s1, h1, w1, u1⟩ := getInt_app hs e (w := 4) (by simp) hu
  obtain ⟨s2, h2, w2, u2⟩ := getInt_app w1 e (w := ow) (by simp) u1
  obtain ⟨s3, h3, w3, u3⟩ := getInt_app w2 e (w := 4) (by simp) u2
  obtain ⟨s4, h4, w4, u4⟩ := getInt_app w3 e (w := 4) (by simp) u3
  simp only [ofHeader, h1, h2, h3, h4, letoh_leEnc4, memDec_memEnc]

/-- Every header-sized byte string is the header of a message. -/
theorem ofHeader_total {s : DataStream} (hs : s.Wf) (e : Endian) {hb rest : List Byte}
    (hl : hb.length = headerSize ow) (hu : s.unread = hb ++ rest) :
    ∃ m : Msg ow, ofHeader e ow s = some m ∧ headerBytes e m = hb ∧ m.payload = [] ∧
      m.noPayload = true := by
  unfold headerSize at hl
  have e1 : hb = hb.take 4 ++ ((hb.drop 4).take ow ++ (((hb.drop 4).drop ow).take 4 ++
      (((hb.drop 4).drop ow).drop 4))) := by simp only [List.take_append_drop]
  generalize hA : hb.take 4 = A at e1
  generalize hB : (hb.drop 4).take ow = B at e1
  generalize hC : ((hb.drop 4).drop ow).take 4 = C at e1
  generalize hD : ((hb.drop 4).drop ow).drop 4 = D at e1
  have lA : A.length = 4 := by rw [← hA]; simp; omega
  have lB : B.length = ow := by rw [← hB]; simp; omega
  have lC : C.length = 4 := by rw [← hC]; simp; omega
  have lD : D.length = 4 := by rw [← hD]; simp; omega
  have conv : ∀ X : List Byte, X.length = 4 → ∃ v : BitVec (8 * 4), Spec.leEnc 4 v.toNat = X := by
    intro X hX
    refine ⟨BitVec.ofNat _ (Spec.leDec X), ?_⟩
    have := Spec.leDec_lt X
    rw [Spec.pow_256, hX] at this
    have h2 := Spec.leEnc_leDec X
    rw [hX] at h2
    simp only [BitVec.toNat_ofNat]
    rw [Nat.mod_eq_of_lt this, h2]
  obtain ⟨va, ha⟩ := conv A lA
  obtain ⟨vc, hc⟩ := conv C lC
  obtain ⟨vd, hd⟩ := conv D lD
  have hb' : memEnc e (memDec e ow B) = B := by
    have := memEnc_memDec e B; rw [lB] at this; exact this
  have hhb : headerBytes e (⟨va, memDec e ow B, vc, vd, [], true⟩ : Msg ow) = hb := by
    rw [e1]; simp only [headerBytes, ha, hc, hd, hb', List.append_assoc]
  refine ⟨⟨va, memDec e ow B, vc, vd, [], true⟩, ?_, hhb, rfl, rfl⟩
  exact ofHeader_ok hs e ⟨va, memDec e ow B, vc, vd, [], true⟩ (rest := rest) (by rw [hhb]; exact hu)

theorem ofHeader_short {s : DataStream} (hs : s.Wf) (e : Endian) (ow : Nat) (how : ow < 2 ^ 63)
    (hl : s.unread.length < headerSize ow) : ofHeader e ow s = none := by
  unfold headerSize at hl
  simp only [ofHeader]
  by_cases h1 : 4 ≤ s.unread.length
  · have w1 := DataStream.wf_advance hs h1
    have u1 := DataStream.unread_advance s 4
    rw [DataStream.getInt_ok hs h1]; simp only
    by_cases h2 : ow ≤ (s.unread.drop 4).length
    · have w2 := DataStream.wf_advance w1 (n := ow) (by rw [u1]; exact h2)
      rw [DataStream.getInt_ok w1 (by rw [u1]; exact h2)]; simp only
      have u2 := DataStream.unread_advance ({ s with offset := s.offset + 4 } : DataStream) ow
      rw [u1] at u2
      by_cases h3 : 4 ≤ ((s.unread.drop 4).drop ow).length
      · rw [DataStream.getInt_ok w2 (by rw [u2]; exact h3)]; simp only
        rw [DataStream.getInt_short (DataStream.wf_advance w2 (by rw [u2]; exact h3)) (by omega)
          (by rw [DataStream.unread_advance, u2]; simp at h3 ⊢; omega)]
      · rw [DataStream.getInt_short w2 (by omega) (by rw [u2]; omega)]
    · rw [DataStream.getInt_short w1 how (by rw [u1]; omega)]
  · rw [DataStream.getInt_short hs (by omega) (by omega)]

theorem letoh_len (e : Endian) {n : Nat} (h : n < 2 ^ 32) :
    (letoh e (memDec e 4 (Spec.leEnc 4 n))).toNat = n := by
  have := letoh_leEnc4 e (BitVec.ofNat _ n)
  have h2 : (BitVec.ofNat (8 * 4) n).toNat = n := by simp only [BitVec.toNat_ofNat]; omega
  rw [h2] at this
  rw [this, h2]

theorem genHashList_eq (e : Endian) (s : DataStream) (hs : List (Blob w)) (h32 : hs.length < 2 ^ 32)
    (hl : ∀ h ∈ hs, h.loaded = true) :
    genHashList e s hs = { s with buffer := s.buffer ++
      (Spec.leEnc 4 hs.length ++ hs.flatMap (fun h => Blob.wordBytes h.data)) } := by
  have key : ∀ (l : List (Blob w)) (s : DataStream), (∀ h ∈ l, h.loaded = true) →
      l.foldl (fun s h => h.serialize e s) s
        = { s with buffer := s.buffer ++ l.flatMap (fun h => Blob.wordBytes h.data) } := by
    intro l
    induction l with
    | nil => intro s _; simp
    | cons h l ih =>
      intro s hl
      rw [List.foldl_cons, Blob.serialize_loaded e h (hl h (by simp)), ih _ (fun x hx => hl x (by simp [hx]))]
      simp
  rw [genHashList, key _ _ hl]
  simp only [DataStream.putInt, memEnc_htole]
  have h2 : (BitVec.ofNat (8 * 4) hs.length).toNat = hs.length := by
    simp only [BitVec.toNat_ofNat]; omega
  rw [h2, List.append_assoc]

theorem flatMap_len (hs : List (Blob w)) (hl : ∀ h ∈ hs, h.data.length = n) :
    (hs.flatMap (fun h => Blob.wordBytes h.data)).length = w * n * hs.length := by
  induction hs with
  | nil => rfl
  | cons h hs ih =>
    rw [List.flatMap_cons, List.length_append, ih (fun x hx => hl x (by simp [hx])),
      Blob.wordBytes_length, hl h (by simp), List.length_cons, Nat.mul_add]
    omega

theorem null_unserialize_ok (e : Endian) (b : Blob w) (s : DataStream) (hwf : s.Wf)
    (hl : b.data.length = n ∧ b.loaded = true) {rest : List Byte}
    (hu : s.unread = Blob.wordBytes b.data ++ rest) :
    ∃ t, (Blob.null w n).unserialize e s = (b, t, true) ∧ t.Wf ∧ t.unread = rest := by
  obtain ⟨t, ht, w1, u1⟩ := Blob.unserLoop_ok e b.data s hwf hu
  refine ⟨t, ?_, w1, u1⟩
  rw [hl.1] at ht
  simp only [Blob.unserialize, Blob.null, List.length_replicate, ht]
  rw [List.drop_of_length_le (by simp [hl.1])]
  cases b; simp at hl ⊢; exact hl.2

theorem parseHashes_ok (e : Endian) (hs : List (Blob w)) (s : DataStream) (hwf : s.Wf)
    (hl : ∀ h ∈ hs, h.data.length = n ∧ h.loaded = true) {rest : List Byte}
    (hu : s.unread = hs.flatMap (fun h => Blob.wordBytes h.data) ++ rest) :
    ∃ t, parseHashes e w n hs.length s = some (hs, t) ∧ t.Wf ∧ t.unread = rest := by
  induction hs generalizing s with
  | nil => exact ⟨s, rfl, hwf, by simpa using hu⟩
  | cons h hs ih =>
    rw [List.flatMap_cons, List.append_assoc] at hu
    obtain ⟨s1, h1, w1, u1⟩ := null_unserialize_ok e h s hwf (hl h (by simp)) hu
    obtain ⟨t, h2, w2, u2⟩ := ih s1 w1 (fun x hx => hl x (by simp [hx])) u1
    exact ⟨t, by simp only [List.length_cons, parseHashes, h1, h2], w2, u2⟩

theorem parseHashes_short (hw : 0 < w) (hw2 : w < 2 ^ 63) (e : Endian) (k : Nat) (s : DataStream)
    (hwf : s.Wf) (hu : s.unread.length < w * n * k) : parseHashes e w n k s = none := by
  induction k generalizing s with
  | zero => omega
  | succ k ih =>
    by_cases hle : w * n ≤ s.unread.length
    · obtain ⟨h1, h2⟩ := Blob.load_bytes hw n (s.unread.take (w * n)) (by simp; omega)
      obtain ⟨t, h3, w3, u3⟩ := null_unserialize_ok (n := n) e (Blob.load w n (s.unread.take (w * n))) s hwf
        ⟨h2, rfl⟩ (rest := s.unread.drop (w * n)) (by rw [h1, List.take_append_drop])
      have := ih t w3 (by rw [u3]; simp only [List.length_drop]; rw [Nat.mul_add] at hu; omega)
      simp only [parseHashes, h3, this]
    · have : ((Blob.null w n).unserialize e s).2.2 = false := by
        simp only [Blob.unserialize, Blob.null, List.length_replicate]
        exact Blob.unserLoop_short hw2 e n s hwf (by omega)
      simp only [parseHashes]
      split
      · rename_i h; rw [h] at this; cases this
      · rfl

end Salticidae.Msg
