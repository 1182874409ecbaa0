import Verif.Lemmas.Stream
import Verif.Lemmas.Blob
import Verif.Model.Bits
namespace Salticidae.Bits

theorem ndataOf_cover {w nbits : Nat} (hw : 0 < w) (h : nbits + 8 * w - 1 < 2 ^ 32) {i : Nat}
    (hi : i < nbits) : i / (8 * w) < ndataOf w nbits := by
  unfold ndataOf
  rw [Nat.mod_eq_of_lt h]
  have : (i + 8 * w) / (8 * w) = i / (8 * w) + 1 := Nat.add_div_right _ (by omega)
  have h2 : (i + 8 * w) / (8 * w) ≤ (nbits + 8 * w - 1) / (8 * w) := Nat.div_le_div_right (by omega)
  omega

theorem idx_lt {w : Nat} (hw : 0 < w) (i : Nat) : i % (8 * w) < 8 * w := Nat.mod_lt _ (by omega)

/-- Bit `j` of a word after the update performed by set/unset/flip at position `pos`. -/
theorem bit_set {n : Nat} (x : BitVec n) (pos j : Nat) (hp : pos < n) (hj : j < n) :
    (x ^^^ ((((x >>> pos) &&& 1) ^^^ 1) <<< pos)).getLsbD j
      = if j = pos then true else x.getLsbD j := by
  simp only [BitVec.getLsbD_xor, BitVec.getLsbD_shiftLeft, BitVec.getLsbD_and,
    BitVec.getLsbD_ushiftRight, hj, decide_true, Bool.true_and]
  by_cases h : j = pos
  · subst h
    have h0 : 0 < n := by omega
    simp [h0]
  · simp only [h, if_false]
    by_cases h2 : j < pos
    · simp [h2]
    · have h0 : j - pos ≠ 0 := by omega
      simp [h0]

theorem bit_unset {n : Nat} (x : BitVec n) (pos j : Nat) (hp : pos < n) (hj : j < n) :
    (x ^^^ (((x >>> pos) &&& 1) <<< pos)).getLsbD j
      = if j = pos then false else x.getLsbD j := by
  simp only [BitVec.getLsbD_xor, BitVec.getLsbD_shiftLeft, BitVec.getLsbD_and,
    BitVec.getLsbD_ushiftRight, hj, decide_true, Bool.true_and]
  by_cases h : j = pos
  · subst h
    have h0 : 0 < n := by omega
    simp [h0]
  · simp only [h, if_false]
    by_cases h2 : j < pos
    · simp [h2]
    · have h0 : j - pos ≠ 0 := by omega
      simp [h0]

theorem bit_flip {n : Nat} (x : BitVec n) (pos j : Nat) (hp : pos < n) (hj : j < n) :
    (x ^^^ ((1 : BitVec n) <<< pos)).getLsbD j = if j = pos then !x.getLsbD j else x.getLsbD j := by
  have h1 : ((1 : BitVec n) <<< pos).getLsbD j = decide (j = pos) := by
    rw [BitVec.getLsbD_shiftLeft]
    have : (1 : BitVec n) = 1#n := rfl
    rw [this, BitVec.getLsbD_one]
    simp only [hj, decide_true, Bool.true_and]
    by_cases h : j = pos
    · subst h; simp; omega
    · simp [h]; omega
  rw [BitVec.getLsbD_xor]
  rw [h1]
  by_cases h : j = pos <;> simp [h]

/-- A well-formed Bits: array of `ndata` words, `ndata` words cover `nbits` bits. -/
def Wf (b : Bits w) : Prop :=
  0 < w ∧ b.nbits + 8 * w - 1 < 2 ^ 32 ∧ b.ndata = ndataOf w b.nbits ∧
    ∃ ws, b.data = some ws ∧ ws.length = b.ndata

theorem get_ok {w : Nat} {b : Bits w} (h : b.Wf) {i : Nat} (hi : i < b.nbits) :
    ∃ ws x, b.data = some ws ∧ ws[i / (8 * w)]? = some x ∧
      b.get i = .ok (x.getLsbD (i % (8 * w))) := by
  obtain ⟨hw, hn, hd, ws, hws, hl⟩ := h
  have hc := ndataOf_cover hw hn hi
  have hlt : i / (8 * w) < ws.length := by omega
  refine ⟨ws, ws[i / (8 * w)], hws, by simp [hlt], ?_⟩
  simp [get, hws, hlt]

/-- Generic step lemma: if `f` changes only bit `pos`, to `g old`, then `modify` changes only bit
`idx`. -/
theorem modify_ok {w : Nat} {b : Bits w} (h : b.Wf) {idx : Nat} (hi : idx < b.nbits)
    (f : BitVec (8 * w) → Nat → BitVec (8 * w)) (g : Bool → Bool)
    (hf : ∀ x pos j, pos < 8 * w → j < 8 * w →
      (f x pos).getLsbD j = if j = pos then g (x.getLsbD j) else x.getLsbD j) :
    ∃ b', b.modify idx f = .ok b' ∧ b'.Wf ∧ b'.nbits = b.nbits ∧
      ∀ i v, b.get i = .ok v → i < b.nbits → b'.get i = .ok (if i = idx then g v else v) := by
  have h' := h
  obtain ⟨hw, hn, hd, ws, hws, hl⟩ := h
  have hc := ndataOf_cover hw hn hi
  have hlt : idx / (8 * w) < ws.length := by omega
  refine ⟨{ b with data := some (ws.set (idx / (8 * w)) (f ws[idx / (8 * w)] (idx % (8 * w)))) },
    by simp [modify, hws, hlt], ?_, rfl, ?_⟩
  · exact ⟨hw, hn, hd, _, rfl, by simp [hl]⟩
  · intro i v hv hib
    have hci := ndataOf_cover hw hn hib
    have hlti : i / (8 * w) < ws.length := by omega
    simp only [get, hws, hlti, List.getElem?_eq_getElem] at hv
    simp only [Out.ok.injEq, BitVec.getLsbD_ushiftRight, Nat.add_zero] at hv
    simp only [get]
    by_cases hdiv : i / (8 * w) = idx / (8 * w)
    · have hgs : (ws.set (idx / (8 * w)) (f ws[idx / (8 * w)] (idx % (8 * w))))[i / (8 * w)]?
          = some (f ws[idx / (8 * w)] (idx % (8 * w))) := by
        rw [hdiv]; simp [hlt]
      simp only [hgs, BitVec.getLsbD_ushiftRight, Nat.add_zero]
      rw [hf _ _ _ (idx_lt hw _) (idx_lt hw _)]
      have : (i % (8 * w) = idx % (8 * w)) ↔ i = idx := by
        constructor
        · intro hm
          rw [← Nat.div_add_mod i (8 * w), ← Nat.div_add_mod idx (8 * w), hdiv, hm]
        · intro hh; rw [hh]
      have hv' : (ws[idx / (8 * w)]).getLsbD (i % (8 * w)) = v := by
        rw [← hv]; congr 1; simp [hdiv]
      simp only [this, hv']
    · have hne : i ≠ idx := fun hh => hdiv (by rw [hh])
      have hgs : (ws.set (idx / (8 * w)) (f ws[idx / (8 * w)] (idx % (8 * w))))[i / (8 * w)]?
          = some ws[i / (8 * w)] := by
        rw [List.getElem?_set_ne (fun hh => hdiv hh.symm)]; simp [hlti]
      simp only [hgs, BitVec.getLsbD_ushiftRight, Nat.add_zero, hv, hne, if_false]

theorem clear_ok {w : Nat} {b : Bits w} (h : b.Wf) :
    ∃ b', b.clear = .ok b' ∧ b'.Wf ∧ b'.nbits = b.nbits ∧
      ∀ i, i < b.nbits → b'.get i = .ok false := by
  obtain ⟨hw, hn, hd, ws, hws, hl⟩ := h
  refine ⟨{ b with data := some (List.replicate b.ndata 0 ++ ws.drop b.ndata) },
    by simp [clear, hws], ⟨hw, hn, hd, _, rfl, by simp [hl]⟩, rfl, ?_⟩
  intro i hi
  have hc := ndataOf_cover hw hn hi
  have hg : (List.replicate b.ndata (0 : BitVec (8 * w)) ++ ws.drop b.ndata)[i / (8 * w)]? = some 0 := by
    rw [List.getElem?_append_left (by simp; omega)]
    simp [List.getElem?_replicate]; omega
  simp only [get, hg]
  simp

/-! load -/

theorem shiftInt_bit {w : Nat} (b : Byte) (k j : Nat) (hk : k + 8 ≤ 8 * w) (hk2 : k < 32)
    (hs : 8 * w ≤ 32 ∨ k + 8 ≤ 24 ∨ j < 32) (hj : j < 8 * w) (h8 : k % 8 = 0) :
    ∃ v, shiftInt b k = .ok v ∧ (v.signExtend (8 * w)).getLsbD j
      = (decide (k ≤ j ∧ j < k + 8) && b.getLsbD (j - k)) := by
  refine ⟨(b.setWidth 32) <<< k, by simp [shiftInt, hk2], ?_⟩
  rw [BitVec.getLsbD_signExtend]
  simp only [hj, decide_true, Bool.true_and]
  by_cases h32 : j < 32
  · simp only [h32, if_true, BitVec.getLsbD_shiftLeft, decide_true, Bool.true_and,
      BitVec.getLsbD_setWidth]
    by_cases h1 : j < k
    · simp [h1]; omega
    · simp only [h1, decide_false, Bool.not_false, Bool.true_and]
      by_cases h2 : j < k + 8
      · have h3 : k ≤ j := by omega
        have h4 : j - k < 32 := by omega
        simp [h2, h3, h4]
      · simp only [h2, and_false, decide_false, Bool.false_and]
        rw [BitVec.getLsbD_of_ge b (j - k) (by omega)]; simp
  · simp only [h32, if_false]
    rw [BitVec.msb_eq_getLsbD_last]
    simp only [BitVec.getLsbD_shiftLeft, BitVec.getLsbD_setWidth]
    have h5 : b.getLsbD (32 - 1 - k) = false := BitVec.getLsbD_of_ge _ _ (by omega)
    rw [h5]
    simp
    omega

/-- Bit `m` of a byte array (bit `m % 8` of byte `m / 8`); false outside. -/
def byteBit (arr : List Byte) (m : Nat) : Bool :=
  match arr[m / 8]? with
  | some b => b.getLsbD (m % 8)
  | none => false

theorem loadWord_ok {w : Nat} (fuel k : Nat) (arr : List Byte) (x : BitVec (8 * w))
    (hk : k + 8 * fuel ≤ 8 * w) (h8 : k % 8 = 0) (h32 : arr ≠ [] → fuel ≠ 0 →
      k + 8 * min fuel arr.length ≤ 32) :
    ∃ x', loadWord w fuel k arr x = .ok (x', arr.drop fuel) ∧
      ∀ j, j < 8 * w → j < 32 →
        x'.getLsbD j = (x.getLsbD j || (decide (k ≤ j ∧ j < k + 8 * fuel) && byteBit arr (j - k))) := by
  induction fuel generalizing k arr x with
  | zero =>
    refine ⟨x, rfl, ?_⟩
    intro j _ _
    have : ¬ (k ≤ j ∧ j < k + 8 * 0) := by omega
    rw [decide_eq_false this]; simp
  | succ fuel ih =>
    cases arr with
    | nil =>
      obtain ⟨x', h1, h2⟩ := ih (k + 8) [] x (by omega) (by omega) (by simp)
      refine ⟨x', by simpa [loadWord] using h1, ?_⟩
      intro j hj hj2
      rw [h2 j hj hj2]
      simp [byteBit]
    | cons b arr =>
      have hle := h32 (by simp) (by simp)
      simp only [List.length_cons] at hle
      have hk32 : k < 32 := by omega
      have hv : shiftInt b k = .ok ((b.setWidth 32) <<< k) := by simp [shiftInt, hk32]
      obtain ⟨x', h1, h2⟩ := ih (k + 8) arr (x ||| ((b.setWidth 32) <<< k).signExtend (8 * w))
        (by omega) (by omega) (by
          intro ha hf
          have := List.length_pos_iff.mpr ha
          omega)
      refine ⟨x', by simp only [loadWord, hv, h1, List.drop_succ_cons], ?_⟩
      intro j hj hj2
      rw [h2 j hj hj2, BitVec.getLsbD_or]
      obtain ⟨v, hv2, hb⟩ := shiftInt_bit (w := w) b k j (by omega) hk32 (.inr (.inr hj2)) hj h8
      rw [hv] at hv2
      cases hv2
      rw [hb, Bool.or_assoc]
      congr 1
      by_cases hjk : j < k
      · have e1 : ¬ k ≤ j := by omega
        have e2 : ¬ k + 8 ≤ j := by omega
        simp [e1, e2]
      · by_cases hj8 : j < k + 8
        · have e1 : k ≤ j := by omega
          have e2 : ¬ k + 8 ≤ j := by omega
          have e3 : j < k + 8 * (fuel + 1) := by omega
          have e4 : (j - k) / 8 = 0 := by omega
          have e5 : (j - k) % 8 = j - k := by omega
          simp [e1, e2, e3, hj8, byteBit, e4, e5]
        · have e1 : k ≤ j := by omega
          have e2 : k + 8 ≤ j := by omega
          have e3 : j < k + 8 * (fuel + 1) ↔ j < k + 8 + 8 * fuel := by omega
          have e4 : (j - k) / 8 = (j - (k + 8)) / 8 + 1 := by omega
          have e5 : (j - k) % 8 = (j - (k + 8)) % 8 := by omega
          have e6 : byteBit (b :: arr) (j - k) = byteBit arr (j - (k + 8)) := by
            simp [byteBit, e4, e5]
          simp [e1, e2, e3, hj8, e6]

theorem loadLoop_ok {w : Nat} (n : Nat) (arr : List Byte)
    (h : 8 * w ≤ 32 ∨ arr.length ≤ 4) :
    ∃ ws, loadLoop w n arr = .ok ws ∧ ws.length = n ∧
      ∀ i x j, ws[i]? = some x → j < 8 * w → j < 32 →
        x.getLsbD j = byteBit arr (8 * w * i + j) := by
  induction n generalizing arr with
  | zero => exact ⟨[], rfl, rfl, by simp⟩
  | succ n ih =>
    obtain ⟨x, h1, h2⟩ := loadWord_ok (w := w) w 0 arr 0 (by omega) (by omega) (by
      intro _ _; omega)
    obtain ⟨ws, h3, h4, h5⟩ := ih (arr.drop w) (by simp; omega)
    refine ⟨x :: ws, by simp only [loadLoop, h1, h3], by simp [h4], ?_⟩
    intro i y j hi hj hj2
    cases i with
    | zero =>
      simp only [List.getElem?_cons_zero, Option.some.injEq] at hi
      subst hi
      rw [h2 j hj hj2]
      simp [hj]
    | succ i =>
      simp only [List.getElem?_cons_succ] at hi
      rw [h5 i y j hi hj hj2]
      unfold byteBit
      have e1 : (8 * w * (i + 1) + j) / 8 = w + (8 * w * i + j) / 8 := by
        have : 8 * w * (i + 1) + j = 8 * w * i + j + 8 * w := by rw [Nat.mul_add]; omega
        rw [this, Nat.add_mul_div_left _ _ (by omega)]; omega
      have e2 : (8 * w * (i + 1) + j) % 8 = (8 * w * i + j) % 8 := by
        have : 8 * w * (i + 1) + j = 8 * w * i + j + 8 * w := by rw [Nat.mul_add]; omega
        rw [this, Nat.add_mul_mod_self_left]
      rw [e1, e2, List.getElem?_drop]

theorem loadWord_ub {w : Nat} (fuel k i : Nat) (arr : List Byte) (x : BitVec (8 * w))
    (hf : i < fuel) (hl : i < arr.length) (hk : 32 ≤ k + 8 * i) :
    loadWord w fuel k arr x = .ub := by
  induction i generalizing fuel k arr x with
  | zero =>
    cases fuel with
    | zero => omega
    | succ fuel => cases arr with
      | nil => simp at hl
      | cons b arr =>
        have : shiftInt b k = .ub := by simp only [shiftInt]; rw [if_neg (by omega)]
        simp [loadWord, this]
  | succ i ih =>
    cases fuel with
    | zero => omega
    | succ fuel => cases arr with
      | nil => simp at hl
      | cons b arr =>
        simp only [loadWord]
        split
        · exact ih fuel (k + 8) arr _ (by omega) (by simpa using hl) (by omega)
        · rfl

theorem unserLoop_ok {w : Nat} (e : Endian) (ws : List (BitVec (8 * w))) (s : DataStream) (hs : s.Wf)
    {rest : List Byte} (hu : s.unread = Blob.wordBytes ws ++ rest) :
    ∃ t, unserLoop e w ws.length s = some (ws, t) ∧ t.Wf ∧ t.unread = rest := by
  induction ws generalizing s with
  | nil => exact ⟨s, rfl, hs, by simpa using hu⟩
  | cons x ws ih =>
    have hle : w ≤ s.unread.length := by rw [hu]; simp
    have h1 := DataStream.getInt_ok hs (e := e) hle
    have h2 := DataStream.wf_advance hs hle
    have hu2 : ({ s with offset := s.offset + w } : DataStream).unread = Blob.wordBytes ws ++ rest := by
      rw [DataStream.unread_advance, hu]; simp
    obtain ⟨t, ht, hw, hr⟩ := ih _ h2 hu2
    refine ⟨t, ?_, hw, hr⟩
    have hx : letoh e (memDec e w (s.unread.take w)) = x := by
      have h3 : s.unread.take w = Spec.leEnc w x.toNat := by rw [hu]; simp
      rw [h3]
      have := letoh_memDec e (Spec.leEnc w x.toNat)
      rw [Spec.leEnc_length, Blob.leDec_word] at this
      rw [this]; simp
    simp only [List.length_cons, unserLoop, h1, ht, hx]

theorem unserLoop_length {w : Nat} (e : Endian) (n : Nat) (s t : DataStream) (ws)
    (h : unserLoop e w n s = some (ws, t)) : ws.length = n := by
  induction n generalizing s ws with
  | zero => simp only [unserLoop, Option.some.injEq, Prod.mk.injEq] at h; simp [← h.1]
  | succ n ih =>
    simp only [unserLoop] at h
    split at h
    · split at h
      · rename_i h2
        simp only [Option.some.injEq, Prod.mk.injEq] at h
        rw [← h.1, List.length_cons]
        congr 1
        rw [← h.2] at ih
        exact ih _ _ h2
      · cases h
    · cases h

end Salticidae.Bits
