import Verif.Lemmas.Bits
/-
Property theorems for Bits (C11-C13).  `w` = bytes per word (8 for `Bits`).
-/
namespace Salticidae
open Bits

/-- The mutating operations of the API. -/
inductive BitOp where
  | set (i : Nat) | unset (i : Nat) | flip (i : Nat) | clear

/-- Apply an operation to the C++ object. -/
def BitOp.run (b : Bits w) : BitOp → Out (Bits w)
  | .set i => b.set i
  | .unset i => b.unset i
  | .flip i => b.flip i
  | .clear => b.clear

/-- Apply a sequence of operations to the C++ object. -/
def BitOp.runAll (b : Bits w) : List BitOp → Out (Bits w)
  | [] => .ok b
  | o :: os => match o.run b with
    | .ok b' => BitOp.runAll b' os
    | .ub => .ub

/-- What the operation does to an array of independent booleans. -/
def BitOp.spec (f : Nat → Bool) : BitOp → (Nat → Bool)
  | .set i => fun j => if j = i then true else f j
  | .unset i => fun j => if j = i then false else f j
  | .flip i => fun j => if j = i then !f j else f j
  | .clear => fun _ => false

/-- The index of the operation is below `n`. -/
def BitOp.inRange (n : Nat) : BitOp → Prop
  | .set i => i < n
  | .unset i => i < n
  | .flip i => i < n
  | .clear => True

/-- C11.  Take a Bits created for `n` bits (fresh memory of any content `junk`).  Every bit is
readable; and after any sequence of in-range operations, every bit has the value an array of
independent booleans with the same initial content would have.  No step is undefined behaviour.
(`n + 8w - 1 < 2^32` is the range in which the library computes the array size without wrapping.) -/
theorem C11_bits_array (w n : Nat) (hw : 0 < w) (hn : n + 8 * w - 1 < 2 ^ 32)
    (junk : List (BitVec (8 * w))) (hj : junk.length = ndataOf w n) :
    ∃ f : Nat → Bool, (∀ i, i < n → (Bits.ofSize w n junk).get i = .ok (f i)) ∧
      ∀ ops : List BitOp, (∀ o ∈ ops, o.inRange n) →
        ∃ b, BitOp.runAll (Bits.ofSize w n junk) ops = .ok b ∧ b.size = n ∧
          ∀ i, i < n → b.get i = .ok (ops.foldl BitOp.spec f i) := by
  have hwf : (Bits.ofSize w n junk).Wf :=
    ⟨hw, hn, rfl, _, rfl, by simp [Bits.ofSize, hj]⟩
  have hget : ∀ i, i < n → ∃ v, (Bits.ofSize w n junk).get i = .ok v := by
    intro i hi
    obtain ⟨ws, x, -, -, h⟩ := get_ok hwf (i := i) hi
    exact ⟨_, h⟩
  have key : ∀ (ops : List BitOp) (b : Bits w) (f : Nat → Bool), b.Wf → b.nbits = n →
      (∀ i, i < n → b.get i = .ok (f i)) → (∀ o ∈ ops, o.inRange n) →
      ∃ b', BitOp.runAll b ops = .ok b' ∧ b'.size = n ∧
        ∀ i, i < n → b'.get i = .ok (ops.foldl BitOp.spec f i) := by
    intro ops
    induction ops with
    | nil => intro b f hb hbn hf _; exact ⟨b, rfl, hbn, hf⟩
    | cons o ops ih =>
      intro b f hb hbn hf hr
      have hro := hr o (by simp)
      have step : ∃ b1, o.run b = .ok b1 ∧ b1.Wf ∧ b1.nbits = n ∧
          ∀ i, i < n → b1.get i = .ok (o.spec f i) := by
        cases o with
        | set i =>
          obtain ⟨b1, h1, h2, h3, h4⟩ := modify_ok hb (idx := i) (by rw [hbn]; exact hro)
            _ (fun _ => true) (fun x pos j hp hj => bit_set x pos j hp hj)
          exact ⟨b1, h1, h2, by rw [h3, hbn], fun k hk => by
            rw [h4 k (f k) (hf k hk) (by rw [hbn]; exact hk)]; rfl⟩
        | unset i =>
          obtain ⟨b1, h1, h2, h3, h4⟩ := modify_ok hb (idx := i) (by rw [hbn]; exact hro)
            _ (fun _ => false) (fun x pos j hp hj => bit_unset x pos j hp hj)
          exact ⟨b1, h1, h2, by rw [h3, hbn], fun k hk => by
            rw [h4 k (f k) (hf k hk) (by rw [hbn]; exact hk)]; rfl⟩
        | flip i =>
          obtain ⟨b1, h1, h2, h3, h4⟩ := modify_ok hb (idx := i) (by rw [hbn]; exact hro)
            _ (fun v => !v) (fun x pos j hp hj => bit_flip x pos j hp hj)
          exact ⟨b1, h1, h2, by rw [h3, hbn], fun k hk => by
            rw [h4 k (f k) (hf k hk) (by rw [hbn]; exact hk)]; rfl⟩
        | clear =>
          obtain ⟨b1, h1, h2, h3, h4⟩ := clear_ok hb
          exact ⟨b1, h1, h2, by rw [h3, hbn], fun k hk => h4 k (by rw [hbn]; exact hk)⟩
      obtain ⟨b1, h1, h2, h3, h4⟩ := step
      obtain ⟨b2, h5, h6, h7⟩ := ih b1 (o.spec f) h2 h3 h4 (fun o' ho' => hr o' (by simp [ho']))
      exact ⟨b2, by simp only [BitOp.runAll, h1, h5], h6, h7⟩
  refine ⟨fun i => match (Bits.ofSize w n junk).get i with | .ok v => v | .ub => false, ?_, ?_⟩
  · intro i hi
    obtain ⟨v, hv⟩ := hget i hi
    simp [hv]
  · intro ops hops
    refine key ops _ _ hwf rfl ?_ hops
    intro i hi
    obtain ⟨v, hv⟩ := hget i hi
    simp [hv]

/-- Non-vacuity of C11 (80 bits on two 64-bit words of arbitrary content). -/
example : ndataOf 8 80 = 2 ∧ 80 + 8 * 8 - 1 < 2 ^ 32 ∧
    (BitOp.runAll (Bits.ofSize 8 80 [5, 7]) [.set 79, .flip 0, .unset 2]).all (fun b =>
      b.get 79 = .ok true ∧ b.get 0 = .ok false ∧ b.get 1 = .ok false) := by decide

/-- The full statement of C12 for a word type of `w` bytes. -/
def C12_statement (w : Nat) : Prop :=
  ∀ arr : List Byte, arr.length * 8 + 8 * w - 1 < 2 ^ 32 →
    ∃ b, Bits.load w arr = .ok b ∧ b.size = 8 * arr.length ∧
      ∀ i, i < 8 * arr.length → ∃ x, arr[i / 8]? = some x ∧ b.get i = .ok (x.getLsbD (i % 8))

/-- C12 is violated for `Bits` (64-bit words): every array of five or more bytes makes the library
shift an `int` by 32 or more, which is undefined behaviour. -/
theorem C12_violated : ¬ C12_statement 8 ∧
    ∀ arr : List Byte, 5 ≤ arr.length → arr.length * 8 + 63 < 2 ^ 32 → Bits.load 8 arr = .ub := by
  have h : ∀ arr : List Byte, 5 ≤ arr.length → arr.length * 8 + 63 < 2 ^ 32 →
      Bits.load 8 arr = .ub := by
    intro arr h1 h2
    have hlen : arr.length % 2 ^ 32 = arr.length := Nat.mod_eq_of_lt (by omega)
    have hnb : arr.length * 8 % 2 ^ 32 = arr.length * 8 := Nat.mod_eq_of_lt (by omega)
    have hnd : ∃ n, ndataOf 8 (arr.length * 8) = n + 1 := by
      have := ndataOf_cover (w := 8) (nbits := arr.length * 8) (by omega) (by omega) (i := 0) (by omega)
      exact ⟨ndataOf 8 (arr.length * 8) - 1, by omega⟩
    obtain ⟨n, hn⟩ := hnd
    have hub : Bits.loadWord 8 8 0 arr 0 = .ub := loadWord_ub 8 0 4 arr 0 (by omega) (by omega) (by omega)
    simp only [Bits.load, hlen, hnb, hn, List.take_length, loadLoop, hub]
  refine ⟨?_, h⟩
  intro hs
  obtain ⟨b, hb, -⟩ := hs [1, 2, 3, 4, 5] (by decide)
  rw [h _ (by decide) (by decide)] at hb
  cases hb

/-- C12, proved part: the property holds for word types of at most 4 bytes and any array, and for
any word type and arrays of at most 4 bytes.  Missing: `Bits` (8-byte words) with longer arrays. -/
theorem C12_bits_load_partial (w : Nat) (hw : 0 < w) (arr : List Byte)
    (hn : arr.length * 8 + 8 * w - 1 < 2 ^ 32) (hsmall : w ≤ 4 ∨ arr.length ≤ 4) :
    ∃ b, Bits.load w arr = .ok b ∧ b.size = 8 * arr.length ∧
      ∀ i, i < 8 * arr.length → ∃ x, arr[i / 8]? = some x ∧ b.get i = .ok (x.getLsbD (i % 8)) := by
  have hlen : arr.length % 2 ^ 32 = arr.length := Nat.mod_eq_of_lt (by omega)
  have hnb : arr.length * 8 % 2 ^ 32 = arr.length * 8 := Nat.mod_eq_of_lt (by omega)
  obtain ⟨ws, h1, h2, h3⟩ := loadLoop_ok (w := w) (ndataOf w (arr.length * 8)) arr (by omega)
  refine ⟨⟨some ws, arr.length * 8, ndataOf w (arr.length * 8)⟩, ?_, by simp [Bits.size, Nat.mul_comm], ?_⟩
  · simp only [Bits.load, hlen, hnb, List.take_length, h1]
  · intro i hi
    have hwf : (Bits.mk (w := w) (some ws) (arr.length * 8) (ndataOf w (arr.length * 8))).Wf :=
      ⟨hw, hn, rfl, ws, rfl, h2⟩
    obtain ⟨ws', x, e1, e2, e3⟩ := get_ok hwf (i := i) (by simp only; omega)
    cases e1
    have hj : i % (8 * w) < 8 * w := idx_lt hw i
    have hj32 : i % (8 * w) < 32 := by
      rcases hsmall with h | h
      · omega
      · have := Nat.mod_le i (8 * w); omega
    have hb := h3 _ _ _ e2 hj hj32
    rw [Nat.div_add_mod] at hb
    have hlt : i / 8 < arr.length := by omega
    refine ⟨arr[i / 8], by simp [hlt], ?_⟩
    rw [e3, hb]
    simp [byteBit, hlt]

example : (Bits.load 8 [0x00, 0x00, 0x00, 0x81]).all (fun b =>
    b.get 24 = .ok true ∧ b.get 31 = .ok true ∧ b.get 30 = .ok false) := by decide
example : (Bits.load 4 [1, 2, 3, 4, 0x80]).all (fun b =>
    b.get 39 = .ok true ∧ b.get 0 = .ok true) := by decide

/-- The second half of C13: whatever bytes were received, a successfully unserialised Bits has all
its `size()` bits readable. -/
def C13_hostile_statement (w : Nat) : Prop :=
  ∀ (e : Endian) (s t : DataStream) (b : Bits w), s.Wf → Bits.unserialize e w s = some (b, t) →
    ∀ i, i < b.size → ∃ v, b.get i = .ok v

/-- C13 is violated for hostile input: four bytes `ff ff ff ff` unserialise to a Bits that claims
2^32-1 bits but has no storage, so reading bit 0 is out of bounds. -/
theorem C13_violated : ¬ C13_hostile_statement 8 := by
  intro h
  have h1 : Bits.unserialize .little 8 (DataStream.ofBytes [0xff, 0xff, 0xff, 0xff])
      = some (⟨some [], 2 ^ 32 - 1, 0⟩, ⟨[0xff, 0xff, 0xff, 0xff], 4⟩) := by decide
  obtain ⟨v, hv⟩ := h _ _ _ _ (by decide) h1 0 (by decide)
  revert hv
  simp [Bits.get]

/-- C13, proved part: the round trip holds for every well-formed Bits (any host byte orders of
writer and reader), and hostile input that announces at most 2^32 - 8w bits gives either an
exception or a Bits all of whose bits are readable.  Missing: announced sizes above that bound. -/
theorem C13_bits_roundtrip_partial (w : Nat) (e e' : Endian) :
    (∀ (b : Bits w) (s0 : DataStream), b.Wf → ∃ s1 bytes, b.serialize e s0 = .ok s1 ∧
      s1 = s0.putData bytes ∧
      ∀ (s : DataStream) (rest : List Byte), s.Wf → s.unread = bytes ++ rest →
        ∃ t, Bits.unserialize e' w s = some (b, t) ∧ t.unread = rest) ∧
    (0 < w → ∀ (s t : DataStream) (b : Bits w), Bits.unserialize e w s = some (b, t) →
      b.size + 8 * w - 1 < 2 ^ 32 → ∀ i, i < b.size → ∃ v, b.get i = .ok v) := by
  constructor
  · intro b s0 hb
    obtain ⟨hw, hn, hd, ws, hws, hl⟩ := hb
    have hnb : b.nbits < 2 ^ 32 := by omega
    refine ⟨s0.putData (Spec.leEnc 4 b.nbits ++ Blob.wordBytes ws),
      Spec.leEnc 4 b.nbits ++ Blob.wordBytes ws, ?_, rfl, ?_⟩
    · simp only [Bits.serialize, hws, hl, Nat.le_refl, if_true, Out.ok.injEq]
      rw [Blob.serialize_fold, ← hl, List.take_length]
      simp only [DataStream.putInt, DataStream.putData, memEnc_htole]
      have : (BitVec.ofNat (8 * 4) b.nbits).toNat = b.nbits := by
        simp only [BitVec.toNat_ofNat]; omega
      rw [this]
      simp
    · intro s rest hs hu
      have hle : 4 ≤ s.unread.length := by rw [hu]; simp
      have h1 := DataStream.getInt_ok hs (e := e') hle
      have h2 := DataStream.wf_advance hs hle
      have ht : s.unread.take 4 = Spec.leEnc 4 b.nbits := by
        rw [hu, List.append_assoc, List.take_left' (by simp)]
      have hu2 : ({ s with offset := s.offset + 4 } : DataStream).unread
          = Blob.wordBytes ws ++ rest := by
        rw [DataStream.unread_advance, hu, List.append_assoc, List.drop_left' (by simp)]
      obtain ⟨t, h3, h4, h5⟩ := unserLoop_ok e' ws _ h2 hu2
      refine ⟨t, ?_, h5⟩
      have hx : (letoh e' (w := 4) (memDec e' 4 (s.unread.take 4))).toNat = b.nbits := by
        rw [ht]
        have := letoh_memDec e' (Spec.leEnc 4 b.nbits)
        rw [Spec.leEnc_length, Spec.leDec_leEnc] at this
        rw [this]
        simp only [BitVec.toNat_ofNat]
        have : (256:Nat) ^ 4 = 2 ^ 32 := by decide
        rw [this]
        omega
      rw [hl, hd] at h3
      simp only [Bits.unserialize, h1, hx, h3, Option.some.injEq, Prod.mk.injEq, and_true]
      cases b; simp_all
  · intro hw s t b h hsz i hi
    simp only [Bits.unserialize] at h
    split at h
    · split at h
      · rename_i s' x _ ws s'' h3
        simp only [Option.some.injEq, Prod.mk.injEq] at h
        have hlen := unserLoop_length e _ _ _ _ h3
        have hwf : b.Wf := by
          rw [← h.1]
          rw [← h.1] at hsz
          exact ⟨hw, hsz, rfl, ws, rfl, hlen⟩
        obtain ⟨_, _, _, _, h4⟩ := get_ok hwf hi
        exact ⟨_, h4⟩
      · cases h
    · cases h

example : (Bits.ofSize 8 80 [5, 7]).Wf := ⟨by decide, by decide, by decide, [5, 7], by decide, by decide⟩

end Salticidae
