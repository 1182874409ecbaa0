import Verif.Lemmas.Bytes
import Verif.Model.Stream
namespace Salticidae

@[simp] theorem memEnc_length (e : Endian) {w : Nat} (v : BitVec (8 * w)) :
    (memEnc e v).length = w := by
  cases e <;> simp [memEnc]

theorem memDec_memEnc (e : Endian) {w : Nat} (v : BitVec (8 * w)) :
    memDec e w (memEnc e v) = v := by
  have h : BitVec.ofNat (8 * w) (v.toNat % 256 ^ w) = v := by
    rw [Spec.pow_256, Nat.mod_eq_of_lt v.isLt]; simp
  cases e <;> simp [memEnc, memDec, Spec.leDec_leEnc, h]

theorem memEnc_memDec (e : Endian) (bs : List Byte) : memEnc e (memDec e bs.length bs) = bs := by
  have h := Spec.leDec_lt bs
  have h' := Spec.leDec_lt bs.reverse
  rw [Spec.pow_256] at h h'
  rw [List.length_reverse] at h'
  cases e
  · simp [memEnc, memDec, Nat.mod_eq_of_lt h, Spec.leEnc_leDec]
  · have := Spec.leEnc_leDec bs.reverse
    rw [List.length_reverse] at this
    simp [memEnc, memDec, Nat.mod_eq_of_lt h', this]

theorem memEnc_bswap {w : Nat} (v : BitVec (8 * w)) :
    memEnc .big (bswap v) = Spec.leEnc w v.toNat := by
  have h := Spec.leDec_lt (Spec.leEnc w v.toNat).reverse
  rw [Spec.pow_256, List.length_reverse, Spec.leEnc_length] at h
  have h2 := Spec.leEnc_leDec (Spec.leEnc w v.toNat).reverse
  rw [List.length_reverse, Spec.leEnc_length] at h2
  simp [memEnc, bswap, Nat.mod_eq_of_lt h, h2]

theorem bswap_bswap {w : Nat} (v : BitVec (8 * w)) : bswap (bswap v) = v := by
  have h1 : Spec.leEnc w (bswap v).toNat = (Spec.leEnc w v.toNat).reverse := by
    have := memEnc_bswap v
    simp only [memEnc] at this
    rw [← this, List.reverse_reverse]
  rw [bswap, h1, List.reverse_reverse, Spec.leDec_leEnc, Spec.pow_256,
    Nat.mod_eq_of_lt v.isLt]
  simp

theorem memEnc_htole (e : Endian) {w : Nat} (v : BitVec (8 * w)) :
    memEnc e (htole e v) = Spec.leEnc w v.toNat := by
  cases e
  · rfl
  · exact memEnc_bswap v

theorem letoh_htole (e : Endian) {w : Nat} (v : BitVec (8 * w)) : letoh e (htole e v) = v := by
  cases e
  · rfl
  · exact bswap_bswap v

/-- Loading a little-endian field and converting it gives the number it encodes. -/
theorem letoh_memDec (e : Endian) (bs : List Byte) :
    letoh e (memDec e bs.length bs) = BitVec.ofNat (8 * bs.length) (Spec.leDec bs) := by
  have h : memDec e bs.length bs = htole e (BitVec.ofNat (8 * bs.length) (Spec.leDec bs)) := by
    have hl := Spec.leDec_lt bs
    rw [Spec.pow_256] at hl
    have h1 : memEnc e (htole e (BitVec.ofNat (8 * bs.length) (Spec.leDec bs))) = bs := by
      rw [memEnc_htole]; simp [Nat.mod_eq_of_lt hl, Spec.leEnc_leDec]
    rw [← memDec_memEnc e (htole e (BitVec.ofNat (8 * bs.length) (Spec.leDec bs))), h1]
  rw [h, letoh_htole]

namespace DataStream

theorem unread_length (s : DataStream) : s.unread.length = s.buffer.length - s.offset := by
  simp [unread]

theorem size_eq {s : DataStream} (h : s.Wf) : s.size = s.unread.length := by
  obtain ⟨h1, h2⟩ := h
  simp only [unread_length, size, sizeMod]
  rw [Nat.mod_eq_of_lt (by omega : s.offset < 2 ^ 64)]
  have : s.buffer.length + (2 ^ 64 - s.offset) = (s.buffer.length - s.offset) + 2 ^ 64 := by omega
  rw [this, Nat.add_mod_right, Nat.mod_eq_of_lt (by omega)]

theorem getBlock_ok {s : DataStream} (h : s.Wf) {len : Nat} (hl : len ≤ s.unread.length) :
    s.getBlock len = .ok { s with offset := s.offset + len } (s.unread.take len) := by
  obtain ⟨h1, h2⟩ := h
  rw [unread_length] at hl
  have hm : (s.offset + len) % sizeMod = s.offset + len := Nat.mod_eq_of_lt (by unfold sizeMod; omega)
  simp only [getBlock, getDataInplace, hm]
  rw [if_neg (by omega)]
  simp only
  rw [if_pos (by omega)]
  rfl

theorem getInt_ok {s : DataStream} (h : s.Wf) {e : Endian} {w : Nat} (hl : w ≤ s.unread.length) :
    s.getInt e w = .ok { s with offset := s.offset + w } (memDec e w (s.unread.take w)) := by
  obtain ⟨h1, h2⟩ := h
  rw [unread_length] at hl
  have hm : (s.offset + w) % sizeMod = s.offset + w := Nat.mod_eq_of_lt (by unfold sizeMod; omega)
  simp only [getInt, hm]
  rw [if_neg (by omega), if_pos (by omega)]
  rfl

theorem getInt_short {s : DataStream} (h : s.Wf) {e : Endian} {w : Nat} (hw : w < 2 ^ 63)
    (hl : s.unread.length < w) : s.getInt e w = .throw s := by
  obtain ⟨h1, h2⟩ := h
  rw [unread_length] at hl
  have hm : (s.offset + w) % sizeMod = s.offset + w := Nat.mod_eq_of_lt (by unfold sizeMod; omega)
  simp only [getInt, hm]
  rw [if_pos (by omega)]

theorem unread_advance (s : DataStream) (n : Nat) :
    ({ s with offset := s.offset + n } : DataStream).unread = s.unread.drop n := by
  simp [unread]

theorem wf_advance {s : DataStream} (h : s.Wf) {n : Nat} (hl : n ≤ s.unread.length) :
    ({ s with offset := s.offset + n } : DataStream).Wf := by
  obtain ⟨h1, h2⟩ := h
  rw [unread_length] at hl
  exact ⟨by simp only; omega, h2⟩

end DataStream

/-- Bytes an item occupies in a stream. -/
def Item.enc (e : Endian) : Item → List Byte
  | .int _ v => memEnc e v
  | .block bs => bs

namespace DataStream

theorem putItem_eq (e : Endian) (s : DataStream) (i : Item) :
    s.putItem e i = { s with buffer := s.buffer ++ i.enc e } := by
  cases i <;> rfl

theorem putItems_eq (e : Endian) (s : DataStream) (l : List Item) :
    s.putItems e l = { s with buffer := s.buffer ++ l.flatMap (Item.enc e) } := by
  unfold putItems
  induction l generalizing s with
  | nil => simp
  | cons i l ih => simp only [List.foldl_cons, ih]; rw [putItem_eq]; simp

theorem putItems_unread (e : Endian) {s : DataStream} (h : s.Wf) (l : List Item) :
    (s.putItems e l).unread = s.unread ++ l.flatMap (Item.enc e) := by
  rw [putItems_eq, unread, unread, List.drop_append_of_le_length h.1]

theorem getItem_ok {s : DataStream} (h : s.Wf) (e : Endian) (i : Item) {rest : List Byte}
    (hu : s.unread = i.enc e ++ rest) :
    s.getItem e i.shape = .ok { s with offset := s.offset + (i.enc e).length } i := by
  cases i with
  | int w v =>
    simp only [getItem, Item.shape, Item.enc] at *
    rw [getInt_ok h (by rw [hu]; simp)]
    simp only [hu, memEnc_length]
    rw [List.take_left' (by simp), memDec_memEnc]
  | block bs =>
    simp only [getItem, Item.shape, Item.enc] at *
    rw [getBlock_ok h (by rw [hu]; simp)]
    simp [hu]

theorem getItems_ok (e : Endian) (l : List Item) {s : DataStream} (h : s.Wf) {rest : List Byte}
    (hu : s.unread = l.flatMap (Item.enc e) ++ rest) :
    ∃ t, s.getItems e (l.map Item.shape) = .ok t l ∧ t.Wf ∧ t.unread = rest := by
  induction l generalizing s with
  | nil => exact ⟨s, rfl, h, by simpa using hu⟩
  | cons i l ih =>
    have hu' : s.unread = i.enc e ++ (l.flatMap (Item.enc e) ++ rest) := by simpa using hu
    have h1 := getItem_ok h e i hu'
    have hle : (i.enc e).length ≤ s.unread.length := by rw [hu']; simp
    have hu2 : ({ s with offset := s.offset + (i.enc e).length } : DataStream).unread
        = l.flatMap (Item.enc e) ++ rest := by
      rw [unread_advance, hu']; simp
    obtain ⟨t, ht, hw, hr⟩ := ih (wf_advance h hle) hu2
    refine ⟨t, ?_, hw, hr⟩
    simp only [List.map_cons, getItems, h1, ht]

/-! Hex -/

theorem hexDecode_hexOf (bs : List Byte) :
    Spec.hexDecode (bs.flatMap hexOfByte) = some bs := by
  induction bs with
  | nil => rfl
  | cons b bs ih =>
    have hb := b.isLt
    simp only [List.flatMap_cons, hexOfByte, List.cons_append, List.nil_append, Spec.hexDecode]
    rw [ih, Spec.hexVal_hexDigit _ (by omega), Spec.hexVal_hexDigit _ (by omega)]
    have : BitVec.ofNat 8 (16 * (b.toNat / 16) + b.toNat % 16) = b := by
      rw [Nat.div_add_mod]; simp
    simp [this]

theorem hexDecode_hexOf_upper (bs : List Byte) :
    Spec.hexDecode ((bs.flatMap hexOfByte).map Char.toUpper) = some bs := by
  induction bs with
  | nil => rfl
  | cons b bs ih =>
    have hb := b.isLt
    simp only [List.flatMap_cons, hexOfByte, List.cons_append, List.nil_append, List.map_cons,
      Spec.hexDecode]
    rw [ih, Spec.hexVal_upper _ (by omega), Spec.hexVal_upper _ (by omega)]
    have : BitVec.ofNat 8 (16 * (b.toNat / 16) + b.toNat % 16) = b := by
      rw [Nat.div_add_mod]; simp
    simp [this]

theorem not_hex_space {c : Char} (h : isCSpace c = true) : Spec.hexVal c = none := by
  simp only [isCSpace, Bool.or_eq_true, decide_eq_true_eq] at h
  rcases h with ((((rfl | rfl) | rfl) | rfl) | rfl) | rfl <;> decide

theorem scanHex2_hex (lax : Bool) {a b : Char} {x y : Nat} (cs : List Char)
    (ha : Spec.hexVal a = some x) (hb : Spec.hexVal b = some y) :
    scanHex2 lax (a :: b :: cs) = some (16 * x + y) := by
  have hsp : isCSpace a = false := by
    cases h : isCSpace a
    · rfl
    · rw [not_hex_space h] at ha; cases ha
  have h1 : a ≠ '+' := by rintro rfl; revert ha; simp [show Spec.hexVal '+' = none by decide]
  have h2 : a ≠ '-' := by rintro rfl; revert ha; simp [show Spec.hexVal '-' = none by decide]
  have h3 : b ≠ 'x' := by rintro rfl; revert hb; simp [show Spec.hexVal 'x' = none by decide]
  have h4 : b ≠ 'X' := by rintro rfl; revert hb; simp [show Spec.hexVal 'X' = none by decide]
  simp [scanHex2, hsp, h1, h2, h3, h4, ha, hb]

theorem hexDecode_cons2 {a b : Char} {cs : List Char} {bs : List Byte}
    (h : Spec.hexDecode (a :: b :: cs) = some bs) :
    ∃ x y r, Spec.hexVal a = some x ∧ Spec.hexVal b = some y ∧ Spec.hexDecode cs = some r ∧
      bs = BitVec.ofNat 8 (16 * x + y) :: r := by
  simp only [Spec.hexDecode, Option.bind_eq_bind, Option.bind_eq_some_iff] at h
  obtain ⟨x, hx, y, hy, r, hr, h⟩ := h
  exact ⟨x, y, r, hx, hy, hr, by simpa using h.symm⟩

theorem loadHexLoop_hex (lax : Bool) (cs : List Char) :
    ∀ bs, Spec.hexDecode cs = some bs → loadHexLoop lax cs = (bs, true) ∧ cs.length = 2 * bs.length := by
  fun_induction loadHexLoop lax cs with
  | case1 a b cs hn =>
    intro bs h
    obtain ⟨x, y, r, hx, hy, hr, rfl⟩ := hexDecode_cons2 h
    rw [scanHex2_hex lax cs hx hy] at hn
    cases hn
  | case2 a b cs v hv r k hk ih =>
    intro bs h
    obtain ⟨x, y, r', hx, hy, hr, rfl⟩ := hexDecode_cons2 h
    obtain ⟨h1, h2⟩ := ih r' hr
    rw [scanHex2_hex lax cs hx hy] at hv
    cases hv
    rw [hk] at h1
    cases h1
    simp [h2]; omega
  | case3 cs hcs =>
    intro bs h
    cases cs with
    | nil => simp [Spec.hexDecode] at h; simp [h]
    | cons a cs => cases cs with
      | nil => simp [Spec.hexDecode] at h
      | cons b cs => exact absurd rfl (hcs a b cs)

end DataStream
end Salticidae
