import Verif.Lemmas.Stream
/-
Property theorems for DataStream (C01-C07, C70).  `unread s` is the part of the buffer from the
read position to the end; `Wf` says that the read position is inside the buffer.
-/
namespace Salticidae
open DataStream

/-- C01.  Write `items` and then `more` to any stream.  Reading first the bytes that were unread
before, then items of the same types, gives these bytes and these items in order; continuing, one
reads `more`, after which the stream is exhausted.  Either byte order. -/
theorem C01_stream_roundtrip (e : Endian) (s : DataStream) (hs : s.Wf) (items more : List Item)
    (hfit : (s.putItems e (items ++ more)).buffer.length < 2 ^ 63) :
    ∃ t t', (s.putItems e (items ++ more)).getItems e ((Item.block s.unread :: items).map Item.shape)
        = .ok t (Item.block s.unread :: items)
      ∧ t.getItems e (more.map Item.shape) = .ok t' more
      ∧ t'.size = 0 := by
  have hw : (s.putItems e (items ++ more)).Wf := by
    refine ⟨?_, hfit⟩
    rw [putItems_eq]; simp only [List.length_append]; have := hs.1; omega
  have hu : (s.putItems e (items ++ more)).unread
      = (Item.block s.unread :: items).flatMap (Item.enc e) ++ more.flatMap (Item.enc e) := by
    rw [putItems_unread e hs]; simp [Item.enc]
  obtain ⟨t, h1, h2, h3⟩ := getItems_ok e _ hw hu
  obtain ⟨t', h4, h5, h6⟩ := getItems_ok e more h2 (rest := []) (by rw [h3]; simp)
  exact ⟨t, t', h1, h4, by rw [size_eq h5, h6]; rfl⟩

/-- Non-vacuity of C01: a stream with one byte already read, two items of different kinds. -/
example : ∃ s : DataStream, s.Wf ∧ s.offset = 1 ∧ s.unread = [2, 3] ∧
    (s.putItems .big ([.int 4 0x01020304#32] ++ [.block [9, 9]])).buffer
      = [1, 2, 3, 1, 2, 3, 4, 9, 9] :=
  ⟨⟨[1, 2, 3], 1⟩, by decide, rfl, rfl, by decide⟩

/-- C02.  Reading a `w`-byte integer: with fewer than `w` unread bytes it throws and the stream is
unchanged; otherwise it returns the integer represented by the `w` oldest unread bytes and consumes
exactly these.  It never touches memory outside the buffer. -/
theorem C02_short_int_read (e : Endian) (w : Nat) (hw : w < 2 ^ 63) (s : DataStream) (hs : s.Wf) :
    (s.unread.length < w → s.getInt e w = .throw s) ∧
    (w ≤ s.unread.length → ∃ s' v, s.getInt e w = .ok s' v ∧ s'.Wf ∧
      memEnc e v = s.unread.take w ∧ s'.unread = s.unread.drop w ∧ s'.buffer = s.buffer) := by
  refine ⟨fun h => getInt_short hs hw h, fun h => ?_⟩
  refine ⟨_, _, getInt_ok hs h, wf_advance hs h, ?_, unread_advance s w, rfl⟩
  have h2 : (s.unread.take w).length = w := by simp [h]
  have h3 := memEnc_memDec e (s.unread.take w)
  rw [h2] at h3
  exact h3

example : (DataStream.mk [1, 2, 3] 1).Wf ∧ (DataStream.mk [1, 2, 3] 1).unread.length < 4 := by decide
example : (DataStream.mk [1, 2, 3] 1).getInt .big 2 = .ok ⟨[1, 2, 3], 3⟩ (0x0203#16) := by decide

/-- The full statement of C03. -/
def C03_statement : Prop :=
  ∀ (s : DataStream) (len : Nat), s.Wf → len < 2 ^ 64 →
    (len ≤ s.unread.length → ∃ s', s.getBlock len = .ok s' (s.unread.take len)
      ∧ s'.unread = s.unread.drop len) ∧
    (s.unread.length < len → ∃ s', s.getBlock len = .throw s' ∧ s'.unread = s.unread
      ∧ s'.size = s.size)

/-- C03 is violated: a failed block read advances the read position past the end, so that size()
reports a huge number. -/
theorem C03_violated : ¬ C03_statement := by
  intro h
  obtain ⟨s', h1, -, h3⟩ := (h ⟨[7], 0⟩ 2 (by decide) (by decide)).2 (by decide)
  have : (DataStream.mk [7] 0).getBlock 2 = .throw ⟨[7], 2⟩ := by decide
  rw [this] at h1
  cases h1
  revert h3
  decide

/-- C03 is violated in a second way: a length close to the top of `size_t` makes the sum wrap, the
check passes and the caller is handed a pointer to `len` bytes that do not exist. -/
theorem C03_violated_overflow :
    ∃ (s : DataStream) (len : Nat), s.Wf ∧ len < 2 ^ 64 ∧ s.unread.length < len ∧
      s.getBlock len = .ub :=
  ⟨⟨[7, 7], 1⟩, 2 ^ 64 - 1, by decide, by decide, by decide, by decide⟩

/-- C03 is violated in a third way: after a failed block read the next integer read can read
outside the buffer. -/
theorem C03_violated_followup :
    ∃ (s s' : DataStream) (len : Nat), s.Wf ∧ len < 2 ^ 64 ∧ s.getBlock len = .throw s' ∧
      s'.getInt .little 1 = .ub :=
  ⟨⟨[], 0⟩, ⟨[], 2 ^ 64 - 1⟩, 2 ^ 64 - 1, by decide, by decide, by decide, by decide⟩

/-- C03, proved part: for lengths below 2^62, a block read succeeds exactly when enough bytes are
unread, returns exactly the next `len` bytes, and otherwise throws; it never yields bytes outside
the buffer.  After a failed read, integer reads throw and later appended data is not disturbed.
Missing: the state after a failed read (see `C03_violated`) and huge lengths. -/
theorem C03_block_read_partial (s : DataStream) (hs : s.Wf) (len : Nat) (hl : len < 2 ^ 62) :
    (len ≤ s.unread.length → ∃ s', s.getBlock len = .ok s' (s.unread.take len)
      ∧ s'.Wf ∧ s'.unread = s.unread.drop len) ∧
    (s.unread.length < len → ∃ s', s.getBlock len = .throw s' ∧ s'.buffer = s.buffer ∧
      ∀ e w, 0 < w → w ≤ 8 → s'.getInt e w = .throw s') := by
  constructor
  · intro h
    exact ⟨_, getBlock_ok hs h, wf_advance hs h, unread_advance s len⟩
  · intro h
    obtain ⟨h1, h2⟩ := hs
    rw [unread_length] at h
    have hm : (s.offset + len) % sizeMod = s.offset + len :=
      Nat.mod_eq_of_lt (by unfold sizeMod; omega)
    refine ⟨{ s with offset := s.offset + len }, ?_, rfl, ?_⟩
    · simp only [getBlock, getDataInplace, hm]
      rw [if_pos (by omega)]
    · intro e w hw0 hw
      have hm2 : (s.offset + len + w) % sizeMod = s.offset + len + w :=
        Nat.mod_eq_of_lt (by unfold sizeMod; omega)
      simp only [getInt, hm2]
      rw [if_pos (by omega)]

example : (DataStream.mk [7] 0).Wf ∧ (DataStream.mk [7] 0).unread.length < 2 := by decide
example : (DataStream.mk [7, 8, 9] 1).Wf ∧ 2 ≤ (DataStream.mk [7, 8, 9] 1).unread.length := by decide

/-- The full statement of C04. -/
def C04_statement : Prop :=
  ∀ s : DataStream, s.Wf → s.toBytesLvalue = .ok s s.unread ∧ s.toBytesRvalue = .ok s s.unread

/-- C04 is violated: converting an rvalue stream gives the whole buffer, including bytes that were
already read. -/
theorem C04_violated : ¬ C04_statement := by
  intro h
  have := (h ⟨[1, 2], 1⟩ (by decide)).2
  revert this
  decide

/-- C04, proved part: the lvalue conversion gives exactly the unread bytes; the rvalue conversion
does so exactly when nothing was read (or nothing was ever written).  Missing: rvalue conversion
after a read. -/
theorem C04_to_bytes_partial (s : DataStream) (hs : s.Wf) :
    s.toBytesLvalue = .ok s s.unread ∧
    (s.toBytesRvalue = .ok s s.unread ↔ s.offset = 0 ∨ s.buffer = []) := by
  constructor
  · simp only [toBytesLvalue, if_pos hs.1]; rfl
  · simp only [toBytesRvalue, unread, Res.ok.injEq, true_and]
    constructor
    · intro h
      have hl := congrArg List.length h
      simp only [List.length_drop] at hl
      have := hs.1
      by_cases h0 : s.buffer = []
      · exact .inr h0
      · have := List.length_pos_iff.mpr h0
        exact .inl (by omega)
    · rintro (h | h) <;> simp [h]

example : (DataStream.mk [1, 2] 1).Wf ∧ (DataStream.mk [1, 2] 1).unread = [2] := by decide

/-- C05.  `s << htole(x)` appends the little-endian encoding of `x` on a host of any byte order,
and `letoh` after reading gives `x` back on a host of any (other) byte order. -/
theorem C05_portable_integers (writer reader : Endian) (w : Nat) (hw : w < 2 ^ 62)
    (x : BitVec (8 * w)) (s : DataStream) :
    (s.putInt writer (htole writer x)).buffer = s.buffer ++ Spec.leEnc w x.toNat ∧
    ∃ t v, (DataStream.empty.putInt writer (htole writer x)).getInt reader w = .ok t v ∧
      letoh reader v = x ∧ t.size = 0 := by
  refine ⟨by simp only [putInt, memEnc_htole], ?_⟩
  have hb : (DataStream.empty.putInt writer (htole writer x)) = ⟨Spec.leEnc w x.toNat, 0⟩ := by
    simp [putInt, memEnc_htole, DataStream.empty]
  have hwf : (DataStream.mk (Spec.leEnc w x.toNat) 0).Wf := by
    refine ⟨Nat.zero_le _, ?_⟩
    simp only [Spec.leEnc_length]; omega
  have hle : w ≤ (DataStream.mk (Spec.leEnc w x.toNat) 0).unread.length := by simp [unread_length]
  rw [hb]
  refine ⟨_, _, getInt_ok hwf hle, ?_, ?_⟩
  · simp only [unread, List.drop_zero]
    rw [List.take_of_length_le (by simp)]
    have := letoh_memDec reader (Spec.leEnc w x.toNat)
    rw [Spec.leEnc_length, Spec.leDec_leEnc, Spec.pow_256, Nat.mod_eq_of_lt x.isLt] at this
    rw [this]; simp
  · rw [size_eq (wf_advance hwf hle), unread_advance]
    simp [unread]

example : (DataStream.empty.putInt .big (htole .big (w := 4) 0x01020304#32)).buffer = [4, 3, 2, 1] := by
  decide

/-- C06.  `get_hex` gives two characters per unread byte, which denote exactly these bytes, and
`load_hex` of that text, in either letter case and into any stream, yields exactly these bytes. -/
theorem C06_hex_roundtrip (lax : Bool) (s t : DataStream) (hs : s.Wf) :
    ∃ txt, s.getHex = .ok s txt ∧ txt.length = 2 * s.unread.length ∧
      (∀ c ∈ txt, c ∈ "0123456789abcdef".toList) ∧
      Spec.hexDecode txt = some s.unread ∧
      t.loadHex lax txt = .ok ⟨s.unread, 0⟩ () ∧
      t.loadHex lax (txt.map Char.toUpper) = .ok ⟨s.unread, 0⟩ () := by
  have key : ∀ txt, Spec.hexDecode txt = some s.unread →
      t.loadHex lax txt = .ok ⟨s.unread, 0⟩ () := by
    intro txt h
    obtain ⟨h1, h2⟩ := loadHexLoop_hex lax txt _ h
    simp only [loadHex, h1, h2]
    rw [if_neg (by omega)]
    rw [if_pos trivial]
    simp only [Res.ok.injEq, DataStream.mk.injEq, and_true]
    rw [List.drop_of_length_le (by simp; omega)]
    simp
  have hd := hexDecode_hexOf s.unread
  refine ⟨s.unread.flatMap hexOfByte, by simp only [getHex, if_pos hs.1]; rfl, ?_, ?_, hd,
    key _ hd, key _ (hexDecode_hexOf_upper s.unread)⟩
  · exact (loadHexLoop_hex lax _ _ hd).2
  · intro c hc
    simp only [List.mem_flatMap, hexOfByte] at hc
    obtain ⟨b, -, hb⟩ := hc
    have hlt := b.isLt
    have hd : ∀ n, n < 16 → Spec.hexDigit n ∈ "0123456789abcdef".toList := by decide
    simp only [List.mem_cons, List.not_mem_nil, or_false] at hb
    rcases hb with rfl | rfl <;> exact hd _ (by omega)

/-- C06, consequence: streams with different unread bytes print differently. -/
theorem C06_hex_injective (s t : DataStream) (hs : s.Wf) (ht : t.Wf) {txt : List Char}
    (h1 : s.getHex = .ok s txt) (h2 : t.getHex = .ok t txt) : s.unread = t.unread := by
  simp only [getHex, if_pos hs.1, Res.ok.injEq, true_and] at h1
  simp only [getHex, if_pos ht.1, Res.ok.injEq, true_and] at h2
  have e1 := hexDecode_hexOf s.unread
  have e2 := hexDecode_hexOf t.unread
  simp only [unread] at *
  rw [h1] at e1; rw [h2, e1] at e2
  exact Option.some.inj e2

example : (DataStream.mk [1, 0xab, 0x0f] 1).getHex = .ok ⟨[1, 0xab, 0x0f], 1⟩ ['a', 'b', '0', 'f'] := by decide

/-- The full statement of C07: malformed text is rejected and leaves the stream unchanged. -/
def C07_statement (lax : Bool) : Prop :=
  ∀ (s : DataStream) (txt : List Char), Spec.hexDecode txt = none → s.loadHex lax txt = .throw s

/-- C07 is violated: `load_hex("1g")` succeeds. -/
theorem C07_violated (lax : Bool) : ¬ C07_statement lax := by
  intro h
  have := h ⟨[], 0⟩ ['1', 'g'] (by decide)
  revert this
  cases lax <;> decide

/-- C07 is violated: white space lets digits be used twice, signs are accepted, and a rejected call
changes the stream. -/
theorem C07_violated_more (lax : Bool) :
    (DataStream.mk [] 0).loadHex lax [' ', '1', '2', '3'] = .ok ⟨[0x12, 0x23], 0⟩ () ∧
    (DataStream.mk [] 0).loadHex lax ['-', '1'] = .ok ⟨[0xff], 0⟩ () ∧
    (DataStream.mk [] 0).loadHex lax [' ', 'a'] = .ok ⟨[0x0a], 0⟩ () ∧
    (DataStream.mk [1, 2, 3] 1).loadHex lax ['g', 'g'] = .throw ⟨[1], 0⟩ := by
  cases lax <;> decide

/-- White space alone is not a number. -/
example (lax : Bool) : (DataStream.mk [] 0).loadHex lax ['a', 'b', ' ', ' '] = .throw ⟨[0xab, 0], 0⟩ ∧
    (DataStream.mk [] 0).loadHex lax [' ', ' ', 'a', 'b'] = .ok ⟨[0xab, 0xab], 0⟩ () := by
  cases lax <;> decide

/-- The pairs of characters at even positions of a text. -/
def pairs : List Char → List (Char × Char)
  | a :: b :: cs => (a, b) :: pairs cs
  | _ => []

/-- C07, proved part: well-formed text is always accepted with its value; text of odd length is
always rejected without any effect; for text of even length without blanks and signs, the call
fails exactly if some pair does not start with a hex digit (or is `0x`, depending on the C
library).  Missing: rejection of a non-digit in the second place of a pair, of blanks and signs. -/
theorem C07_load_hex_partial (lax : Bool) (s : DataStream) (txt : List Char) :
    (∀ bs, Spec.hexDecode txt = some bs → s.loadHex lax txt = .ok ⟨bs, 0⟩ ()) ∧
    (txt.length % 2 = 1 → s.loadHex lax txt = .throw s) ∧
    (txt.length % 2 = 0 → (∀ c ∈ txt, isCSpace c = false ∧ c ≠ '+' ∧ c ≠ '-') →
      ((∃ s', s.loadHex lax txt = .throw s') ↔
        ∃ p ∈ pairs txt, Spec.hexVal p.1 = none ∨
          (lax = false ∧ p.1 = '0' ∧ (p.2 = 'x' ∨ p.2 = 'X')))) := by
  refine ⟨?_, ?_, ?_⟩
  · intro bs h
    obtain ⟨h1, h2⟩ := loadHexLoop_hex lax txt _ h
    simp only [loadHex, h1, h2]
    rw [if_neg (by omega), if_pos trivial]
    simp only [Res.ok.injEq, DataStream.mk.injEq, and_true]
    rw [List.drop_of_length_le (by simp; omega)]
    simp
  · intro h; simp only [loadHex, if_pos h]
  · intro h hc
    have hl : ∀ txt : List Char, (∀ c ∈ txt, isCSpace c = false ∧ c ≠ '+' ∧ c ≠ '-') →
        ((loadHexLoop lax txt).2 = false ↔ ∃ p ∈ pairs txt, Spec.hexVal p.1 = none ∨
          (lax = false ∧ p.1 = '0' ∧ (p.2 = 'x' ∨ p.2 = 'X'))) := by
      intro txt
      fun_induction loadHexLoop lax txt with
      | case1 a b cs hn =>
        intro hc
        simp only [pairs, List.mem_cons, exists_eq_or_imp, true_iff]
        left
        have ha := hc a (by simp)
        simp only [scanHex2, List.dropWhile_cons, ha.1, Bool.false_eq_true, if_false, ha.2.1,
          ha.2.2] at hn
        split at hn
        · left; assumption
        · right
          split at hn
          · rename_i hx
            refine ⟨?_, hx.1, hx.2⟩
            cases lax
            · rfl
            · simp at hn
          · split at hn <;> cases hn
      | case2 a b cs v hv r k hk ih =>
        intro hc
        simp only [pairs, List.mem_cons, exists_eq_or_imp]
        rw [hk] at ih
        simp only at ih
        rw [ih (fun c hcc => hc c (by simp [hcc]))]
        constructor
        · exact .inr
        · rintro (h | h)
          · exfalso
            have ha := hc a (by simp)
            simp only [scanHex2, List.dropWhile_cons, ha.1, Bool.false_eq_true, if_false, ha.2.1,
              ha.2.2] at hv
            rcases h with h | ⟨h1, h2, h3⟩
            · rw [h] at hv; simp at hv
            · rw [h1] at hv
              have : Spec.hexVal a = some 0 := by rw [h2]; decide
              rw [this] at hv
              simp only [h2, h3, and_self, if_true, Bool.false_eq_true, if_false] at hv
              cases hv
          · exact h
      | case3 cs hcs =>
        intro _
        cases cs with
        | nil => simp [pairs]
        | cons a cs => cases cs with
          | nil => simp [pairs]
          | cons b cs => exact absurd rfl (hcs a b cs)
    rw [← hl txt hc]
    simp only [loadHex]
    rw [if_neg (by omega)]
    cases hk : (loadHexLoop lax txt).2 <;> simp

example : Spec.hexDecode ['0', 'f', 'A', '1'] = some [0x0f, 0xa1] := by decide
example : (∀ c ∈ ['1', '2', 'g', '1'], isCSpace c = false ∧ c ≠ '+' ∧ c ≠ '-') ∧
    ∃ p ∈ pairs ['1', '2', 'g', '1'], Spec.hexVal p.1 = none :=
  ⟨by decide, ('g', '1'), by decide, by decide⟩

/-- C07, proved part: whatever blanks and signs a text contains, it is rejected if what follows some
even position has no hex digit. -/
theorem C07_no_digit_partial (lax : Bool) (s : DataStream) (pre post : List Char)
    (hp : pre.length % 2 = 0) (hne : post ≠ []) (hd : ∀ c ∈ post, Spec.hexVal c = none) :
    ∃ s', s.loadHex lax (pre ++ post) = .throw s' := by
  have hscan : ∀ p : List Char, (∀ c ∈ p, Spec.hexVal c = none) → scanHex2 lax p = none := by
    intro p hp
    have hm : ∀ c ∈ p.dropWhile isCSpace, Spec.hexVal c = none :=
      fun c hc => hp c (List.dropWhile_subset _ hc)
    simp only [scanHex2]
    split
    · rfl
    · rename_i c rest hq
      rw [hq] at hm
      split
      · split
        · exact hm _ (by simp)
        · rfl
      · split
        · split
          · rw [hm _ (by simp)]; rfl
          · rfl
        · rw [hm c (by simp)]
  by_cases hodd : (pre ++ post).length % 2 = 1
  · exact ⟨s, by simp only [loadHex, if_pos hodd]⟩
  · have hloop : ∀ (n : Nat) (pre : List Char), pre.length = 2 * n →
        (loadHexLoop lax (pre ++ post)).2 = false := by
      intro n
      induction n with
      | zero =>
        intro pre hl
        have : pre = [] := List.length_eq_zero_iff.mp (by omega)
        subst this
        match post, hne, hd, hodd with
        | [_], _, _, ho => simp at ho; omega
        | a :: b :: cs, _, hd, _ =>
          simp only [List.nil_append, loadHexLoop, hscan _ hd]
      | succ n ih =>
        intro pre hl
        match pre, hl with
        | a :: b :: cs, hl =>
          have := ih cs (by simp at hl; omega)
          simp only [List.cons_append, loadHexLoop]
          split
          · rfl
          · exact this
    have h2 := hloop (pre.length / 2) pre (by omega)
    simp only [loadHex, if_neg hodd]
    rw [h2]
    exact ⟨_, rfl⟩

example (lax : Bool) : (DataStream.mk [] 0).loadHex lax ['a', 'b', '-', ' ', ' ', '+'] =
    .throw ⟨[0xab, 0, 0], 0⟩ ∧ ∀ c ∈ ['-', ' ', ' ', '+'], Spec.hexVal c = none := by
  cases lax <;> decide

/-- The full statement of C70: `*succ` is true exactly when a value was read. -/
def C70_statement : Prop :=
  ∀ (e : Endian) (w : Nat) (s : DataStream), s.Wf → w ≤ 8 →
    ∃ s' v, s.cGetInt e w = .ok s' (v, decide (w ≤ s.unread.length))

/-- C70 is violated: reading a byte from an empty stream reports success. -/
theorem C70_violated : ¬ C70_statement := by
  intro h
  obtain ⟨s', v, h⟩ := h .little 1 ⟨[], 0⟩ (by decide) (by decide)
  have h2 : (DataStream.mk [] 0).cGetInt .little 1 = .ok ⟨[], 0⟩ (0#8, true) := by decide
  rw [h2] at h
  simp only [Res.ok.injEq, Prod.mk.injEq] at h
  revert h; simp [unread]

/-- C70, proved part: when enough bytes are unread, the value is read and `*succ` is true; when not,
the stream is unchanged and 0 is returned (but `*succ` is true as well).  Missing: `*succ = false`
on failure. -/
theorem C70_c_api_partial (e : Endian) (w : Nat) (hw : w ≤ 8) (s : DataStream) (hs : s.Wf) :
    (w ≤ s.unread.length → ∃ s' v, s.cGetInt e w = .ok s' (v, true) ∧
      memEnc e v = s.unread.take w ∧ s'.unread = s.unread.drop w) ∧
    (s.unread.length < w → s.cGetInt e w = .ok s (0#(8 * w), true)) := by
  obtain ⟨h1, h2⟩ := C02_short_int_read e w (by omega) s hs
  constructor
  · intro h
    obtain ⟨s', v, ha, -, hb, hc, -⟩ := h2 h
    exact ⟨s', v, by simp only [cGetInt, ha], hb, hc⟩
  · intro h
    simp only [cGetInt, h1 h]

end Salticidae
