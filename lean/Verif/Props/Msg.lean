import Verif.Lemmas.Msg
/-
Property theorems for MsgBase (C16-C19).
-/
namespace Salticidae
open Msg

/-- C16.  The header is the first `4 + ow + 4 + 4` bytes of a serialised message; parsing any stream
that begins with it gives back magic, opcode, length and checksum (no payload yet); parsing a stream
with fewer bytes throws. -/
theorem C16_header_roundtrip (e : Endian) (ow : Nat) (m : Msg ow) :
    headerSize ow = 12 + ow ∧
    (m.serialize e).length = headerSize ow + m.payload.length ∧
    (∀ (s : DataStream) (rest : List Byte), s.Wf →
      s.unread = (m.serialize e).take (headerSize ow) ++ rest →
      ∃ m' : Msg ow, Msg.ofHeader e ow s = some m' ∧ m'.magic = m.magic ∧ m'.opcode = m.opcode ∧
        m'.length = m.length ∧ m'.checksum = m.checksum ∧ m'.noPayload = true) ∧
    (∀ s : DataStream, s.Wf → ow < 2 ^ 63 → s.unread.length < headerSize ow →
      Msg.ofHeader e ow s = none) := by
  refine ⟨by unfold headerSize; omega, by simp [serialize_eq], ?_, ?_⟩
  · intro s rest hs hu
    rw [serialize_eq, List.take_left' (by simp)] at hu
    exact ⟨_, ofHeader_ok hs e m hu, rfl, rfl, rfl, rfl, rfl⟩
  · intro s hs how hl
    exact ofHeader_short hs e ow how hl

example : (Msg.mk (ow := 1) 0x11223344 7 3 9 [1, 2, 3] false).serialize .little
    = [0x44, 0x33, 0x22, 0x11, 7, 3, 0, 0, 0, 9, 0, 0, 0, 1, 2, 3] := by decide

/-- C17.  A message built from a typed message whose stream holds the (unread) bytes `p` exists; it
announces `p.length` (if below 4 GiB), verifies, serialises to its header followed by `p`, and hands
out exactly `p` once, after which asking again throws. -/
theorem C17_message_payload (e : Endian) (H : List Byte → List Byte) (ow : Nat)
    (op : BitVec (8 * ow)) (magic : BitVec (8 * 4)) (s : DataStream) (hs : s.Wf)
    (h32 : s.unread.length < 2 ^ 32) :
    ∃ m : Msg ow, Msg.ofTyped e H op s magic = some m ∧
      m.length.toNat = s.unread.length ∧ m.opcode = op ∧ m.magic = magic ∧
      m.verifyChecksum e H = some true ∧
      (m.serialize e).drop (headerSize ow) = s.unread ∧
      ∃ t m', m.getPayload = some (t, m') ∧ t.Wf ∧ t.unread = s.unread ∧ m'.getPayload = none := by
  have h1 : s.toBytesLvalue = .ok s s.unread := by simp [DataStream.toBytesLvalue, hs.1, DataStream.unread]
  refine ⟨⟨magic, op, BitVec.ofNat _ s.unread.length, checksumOf e H s.unread, s.unread, false⟩,
    ?_, ?_, rfl, rfl, ?_, ?_, DataStream.ofBytes s.unread, _, rfl, ?_, ?_, rfl⟩
  · simp [Msg.ofTyped, h1, Msg.setChecksum, Msg.getChecksum, Msg.setPayload, Msg.setOpcode, Msg.fresh]
  · simp only [BitVec.toNat_ofNat]; omega
  · simp [Msg.verifyChecksum, Msg.getChecksum]
  · rw [serialize_eq, List.drop_left' (by simp)]
  · have := hs.2
    rw [DataStream.Wf, DataStream.ofBytes]
    simp only [DataStream.unread_length]; omega
  · simp [DataStream.ofBytes, DataStream.unread]

/-- C17, received side: a header parsed from the wire completed with received payload `p` verifies
exactly if the announced checksum is the checksum of `p`; and a message received as sent verifies. -/
theorem C17_verify (e : Endian) (H : List Byte → List Byte) (ow : Nat) (m : Msg ow)
    (s : DataStream) (rest p : List Byte) (hs : s.Wf)
    (hu : s.unread = (m.serialize e).take (headerSize ow) ++ rest) :
    ∃ r : Msg ow, Msg.ofHeader e ow s = some r ∧
      ((r.setPayload p).verifyChecksum e H = some true ↔
        m.checksum = memDec e 4 ((H p).take 4)) ∧
      (m.verifyChecksum e H = some true → p = m.payload →
        (r.setPayload p).verifyChecksum e H = some true) := by
  rw [serialize_eq, List.take_left' (by simp)] at hu
  refine ⟨_, ofHeader_ok hs e m hu, ?_, ?_⟩
  · simp [Msg.setPayload, Msg.verifyChecksum, Msg.getChecksum, checksumOf]
  · intro hv hp
    subst hp
    simp only [Msg.verifyChecksum, Msg.getChecksum, Msg.setPayload] at hv ⊢
    split at hv
    · cases hv
    · simpa using hv

example : ((Msg.ofTyped (ow := 1) .little (fun p => (p ++ [0, 0, 0, 0]).take 4) 3
    ⟨[9, 1, 2, 3], 1⟩ 0).map fun m => m.serialize .little)
    = some [0, 0, 0, 0, 3, 3, 0, 0, 0, 1, 2, 3, 0, 1, 2, 3] := by decide

/-- C17, `set_payload` with a stream: the message then carries everything that was ever written to the stream, also what has been
read from it meanwhile; when nothing has been read that is the stream's content. -/
theorem C17_set_payload_stream (e : Endian) (H : List Byte → List Byte) (ow : Nat) (m : Msg ow) (s : DataStream) (hs : s.Wf)
    (h32 : s.buffer.length < 2 ^ 32) :
    ∃ m' : Msg ow, (m.setPayloadStream s).setChecksum e H = some m' ∧
      m'.length.toNat = s.buffer.length ∧ m'.opcode = m.opcode ∧ m'.magic = m.magic ∧
      m'.verifyChecksum e H = some true ∧
      (m'.serialize e).drop (headerSize ow) = s.buffer ∧
      (∃ t m'', m'.getPayload = some (t, m'') ∧ t.unread = s.buffer) ∧
      (s.offset = 0 → s.buffer = s.unread) := by
  refine ⟨⟨m.magic, m.opcode, BitVec.ofNat _ s.buffer.length, checksumOf e H s.buffer, s.buffer, false⟩,
    ?_, ?_, rfl, rfl, ?_, ?_, ⟨DataStream.ofBytes s.buffer, _, rfl, ?_⟩, ?_⟩
  · simp [Msg.setChecksum, Msg.getChecksum, Msg.setPayload, Msg.setPayloadStream]
  · simp only [BitVec.toNat_ofNat]; omega
  · simp [Msg.verifyChecksum, Msg.getChecksum]
  · rw [serialize_eq, List.drop_left' (by simp)]
  · simp [DataStream.ofBytes, DataStream.unread]
  · intro h; simp [DataStream.unread, h]

/-- A stream of which one byte has been read. -/
example : (((Msg.fresh 0 0 0 : Msg 1).setPayloadStream ⟨[9, 1, 2, 3], 1⟩).setChecksum .little (fun p => (p ++ [0, 0, 0, 0]).take 4)).map
    (fun m => (m.serialize .little).drop 13) = some [9, 1, 2, 3] := by decide

/-- The operations of the API on a message object. -/
inductive MsgOp (ow : Nat) where
  | setMagic (v : BitVec (8 * 4))
  | setOpcode (v : BitVec (8 * ow))
  | setPayload (p : List Byte)
  | setChecksum
  | getPayload

/-- Effect of an operation on the message (a throwing operation leaves it unchanged). -/
def MsgOp.run (e : Endian) (H : List Byte → List Byte) (m : Msg ow) : MsgOp ow → Msg ow
  | .setMagic v => m.setMagic v
  | .setOpcode v => m.setOpcode v
  | .setPayload p => m.setPayload p
  | .setChecksum => (m.setChecksum e H).getD m
  | .getPayload => match m.getPayload with
    | some (_, m') => m'
    | none => m

/-- The length field of serialised bytes: bytes `4 + ow` to `8 + ow`, little endian. -/
def wireLength (ow : Nat) (bs : List Byte) : Nat := Spec.leDec ((bs.drop (4 + ow)).take 4)

theorem Msg.ofHeader_bare {e : Endian} {ow : Nat} {s : DataStream} {m : Msg ow} (h : Msg.ofHeader e ow s = some m) : m.noPayload = true := by
  unfold Msg.ofHeader at h
  split at h <;> try contradiction
  split at h <;> try contradiction
  split at h <;> try contradiction
  split at h <;> try contradiction
  cases h; rfl

/-- The messages a program starts with, and their magic number, opcode and payload: built from a typed message, default-constructed, or with a header parsed from
bytes. -/
inductive Built (e : Endian) (H : List Byte → List Byte) (ow : Nat) : BitVec (8 * 4) → BitVec (8 * ow) → Option (List Byte) → Msg ow → Prop where
  | typed (op : BitVec (8 * ow)) (magic : BitVec (8 * 4)) (s : DataStream) (m : Msg ow) : s.Wf → Msg.ofTyped e H op s magic = some m →
      Built e H ow magic op (some s.unread) m
  | blank (magic len sum : BitVec (8 * 4)) : Built e H ow magic 0xff none (Msg.fresh magic len sum)
  | header (s : DataStream) (m : Msg ow) : Msg.ofHeader e ow s = some m → Built e H ow m.magic m.opcode none m

/-- The full statement of C18. -/
def C18_statement : Prop :=
  ∀ (e : Endian) (H : List Byte → List Byte) (ow : Nat) (op : BitVec (8 * ow)) (magic : BitVec (8 * 4))
    (p : Option (List Byte)) (m : Msg ow) (ops : List (MsgOp ow)), Built e H ow magic op p m →
    let bs := (ops.foldl (MsgOp.run e H) m).serialize e
    wireLength ow bs = bs.length - headerSize ow

/-- C18 is violated: after the payload was taken with get_payload, the message still serialises, to a
header announcing the old length with nothing behind it (a receiver then waits for bytes that never
come and swallows the next message). -/
theorem C18_violated : ¬ C18_statement := by
  intro h
  have := h .little (fun _ => [0, 0, 0, 0]) 1 3 0 _
    ⟨0, 3, 3, 0, [1, 2, 3], false⟩ [.getPayload] (.typed 3 0 ⟨[1, 2, 3], 0⟩ _ (by decide) (by decide))
  revert this
  decide

/-- C18 is also violated without consuming anything: a payload of 4 GiB is announced as empty. -/
theorem C18_violated_4g (e : Endian) :
    let m := (Msg.fresh (ow := 1) 0 0 0).setPayload (List.replicate (2 ^ 32) 0)
    wireLength 1 (m.serialize e) = 0 ∧ (m.serialize e).length - headerSize 1 = 2 ^ 32 := by
  generalize hp : List.replicate (2 ^ 32) (0 : Byte) = p
  have hl : p.length = 2 ^ 32 := by rw [← hp]; exact List.length_replicate ..
  have hz : (BitVec.ofNat (8 * 4) p.length) = 0 := by rw [hl]; decide
  simp only [Msg.setPayload, Msg.fresh]
  rw [hz]
  refine ⟨?_, by rw [serialize_eq]; simp [hl]⟩
  rw [serialize_eq]
  simp only [wireLength, headerBytes, List.append_assoc]
  rw [← List.append_assoc, List.drop_left' (by simp), List.take_left' (by simp)]
  decide

/-- C18 is violated from the start by a default-constructed message: its length field is whatever was in memory. -/
theorem C18_violated_blank (e : Endian) : wireLength 1 ((Msg.fresh (ow := 1) 0 5 0).serialize e) = 5 ∧ ((Msg.fresh (ow := 1) 0 5 0).serialize e).length = headerSize 1 := by
  cases e <;> decide

/-- C18, proved part: after any operations on a message, however it was made, as long as a payload
is there (it can be read) and is shorter than 4 GiB, the message serialises to a well-formed
frame.  Missing: messages without a payload or whose payload was consumed, and payloads of 4 GiB or more. -/
theorem C18_frame_partial (e : Endian) (H : List Byte → List Byte) (ow : Nat)
    (op : BitVec (8 * ow)) (magic : BitVec (8 * 4)) (p : Option (List Byte)) (m : Msg ow)
    (ops : List (MsgOp ow)) (hm : Built e H ow magic op p m) :
    let m' := ops.foldl (MsgOp.run e H) m
    ∀ t m'', m'.getPayload = some (t, m'') → t.buffer.length < 2 ^ 32 →
      wireLength ow (m'.serialize e) = (m'.serialize e).length - headerSize ow ∧
      (m'.serialize e).drop (headerSize ow) = t.buffer := by
  have inv : ∀ (ops : List (MsgOp ow)) (m : Msg ow),
      (m.noPayload = false → m.length = BitVec.ofNat _ m.payload.length) →
      let m' := ops.foldl (MsgOp.run e H) m
      m'.noPayload = false → m'.length = BitVec.ofNat _ m'.payload.length := by
    intro ops
    induction ops with
    | nil => intro m h; exact h
    | cons o ops ih =>
      intro m h
      rw [List.foldl_cons]
      apply ih
      cases o with
      | setMagic v => exact h
      | setOpcode v => exact h
      | setPayload p => intro _; rfl
      | setChecksum =>
        simp only [MsgOp.run, Msg.setChecksum, Msg.getChecksum]
        cases hn : m.noPayload <;> simp [hn] at h ⊢
        exact h
      | getPayload =>
        simp only [MsgOp.run, Msg.getPayload]
        cases hn : m.noPayload <;> simp [hn] at h ⊢
  intro m' t m'' hg hl
  have hinit : m.noPayload = false → m.length = BitVec.ofNat _ m.payload.length := by
    intro hn
    cases hm with
    | typed _ _ s _ hs hm =>
      simp only [Msg.ofTyped] at hm
      split at hm
      · simp only [Msg.setChecksum, Msg.getChecksum, Msg.setPayload, Msg.setOpcode, Msg.fresh,
          Bool.false_eq_true, if_false, Option.map_some, Option.some.injEq] at hm
        rw [← hm]
      · cases hm
    | blank _ len sum => cases hn
    | header s _ hm => rw [ofHeader_bare hm] at hn; cases hn
  have h1 := inv ops m hinit
  simp only [Msg.getPayload] at hg
  split at hg
  · cases hg
  · rename_i hn
    simp only [Option.some.injEq, Prod.mk.injEq] at hg
    rw [← hg.1] at hl ⊢
    simp only [DataStream.ofBytes] at hl ⊢
    have hlen := h1 (by simpa using hn)
    rw [serialize_eq]
    refine ⟨?_, by rw [List.drop_left' (by simp)]⟩
    simp only [wireLength, headerBytes, List.append_assoc]
    rw [← List.append_assoc, List.drop_left' (by simp), List.take_left' (by simp)]
    rw [Spec.leDec_leEnc]
    change m'.length = BitVec.ofNat _ m'.payload.length at hlen
    rw [hlen]
    simp only [BitVec.toNat_ofNat, List.length_append, Spec.leEnc_length, memEnc_length, headerSize]
    rw [Spec.pow_256, Nat.mod_mod, Nat.mod_eq_of_lt (by omega)]
    omega

/-- After any operations on a message, a payload can be read exactly as long as one was given to the message after the last time its payload was taken. -/
theorem C18_readable (e : Endian) (H : List Byte → List Byte) (ow : Nat)
    (op : BitVec (8 * ow)) (magic : BitVec (8 * 4)) (p : Option (List Byte)) (m : Msg ow)
    (ops : List (MsgOp ow)) (hm : Built e H ow magic op p m) :
    (∃ t m', (ops.foldl (MsgOp.run e H) m).getPayload = some (t, m')) ↔
      ops.foldl (fun (b : Bool) o => match o with
        | .setPayload _ => true
        | .getPayload => false
        | _ => b) p.isSome = true := by
  have inv : ∀ (ops : List (MsgOp ow)) (m : Msg ow) (b : Bool), m.noPayload = !b →
      (ops.foldl (MsgOp.run e H) m).noPayload = !(ops.foldl (fun (b : Bool) o => match o with
        | .setPayload _ => true
        | .getPayload => false
        | _ => b) b) := by
    intro ops
    induction ops with
    | nil => intro m b h; exact h
    | cons o ops ih =>
      intro m b h
      rw [List.foldl_cons, List.foldl_cons]
      apply ih
      cases o with
      | setMagic v => exact h
      | setOpcode v => exact h
      | setPayload p => rfl
      | setChecksum =>
        simp only [MsgOp.run, Msg.setChecksum, Msg.getChecksum]
        cases hn : m.noPayload <;> simp [hn] at h ⊢ <;> simp [h]
      | getPayload =>
        simp only [MsgOp.run, Msg.getPayload]
        cases hn : m.noPayload <;> simp [hn]
  have h0 : m.noPayload = !p.isSome := by
    cases hm with
    | typed _ _ s _ hs hm =>
      simp only [Msg.ofTyped] at hm
      split at hm
      · simp only [Msg.setChecksum, Msg.getChecksum, Msg.setPayload, Msg.setOpcode, Msg.fresh,
          Bool.false_eq_true, if_false, Option.map_some, Option.some.injEq] at hm
        rw [← hm]; rfl
      · cases hm
    | blank _ len sum => rfl
    | header s _ hm => rw [ofHeader_bare hm]; rfl
  have h1 := inv ops m _ h0
  simp only [Msg.getPayload, h1]
  cases ops.foldl (fun (b : Bool) o => match o with
        | .setPayload _ => true
        | .getPayload => false
        | _ => b) p.isSome <;> simp

/-- A message made by default, before and after it gets a payload. -/
example : (Msg.fresh (ow := 1) 0 9 9).getPayload = none ∧
    ((([.setPayload [7, 8]] : List (MsgOp 1)).foldl (MsgOp.run .little (fun _ => [1, 2, 3, 4])) (Msg.fresh 0 9 9)).getPayload.map (·.1.buffer)) = some [7, 8] := by
  decide

/-- What an operation sets. -/
def MsgOp.magic? : MsgOp ow → Option (BitVec (8 * 4))
  | .setMagic v => some v
  | _ => none

def MsgOp.opcode? : MsgOp ow → Option (BitVec (8 * ow))
  | .setOpcode v => some v
  | _ => none

def MsgOp.payload? : MsgOp ow → Option (List Byte)
  | .setPayload p => some p
  | _ => none

/-- After any operations the frame starts with the magic number and the opcode that were set last; the payload, while it can be read, is the one that was set last. -/
theorem C18_fields (e : Endian) (H : List Byte → List Byte) (ow : Nat)
    (op : BitVec (8 * ow)) (magic : BitVec (8 * 4)) (p : Option (List Byte)) (m : Msg ow)
    (ops : List (MsgOp ow)) (hm : Built e H ow magic op p m) :
    let m' := ops.foldl (MsgOp.run e H) m
    (m'.serialize e).take (4 + ow) =
      Spec.leEnc 4 ((ops.filterMap MsgOp.magic?).getLastD magic).toNat ++ memEnc e ((ops.filterMap MsgOp.opcode?).getLastD op) ∧
    (∀ t m'', m'.getPayload = some (t, m'') → some t.buffer = (ops.filterMap MsgOp.payload?).getLast?.or p) := by
  have inv : ∀ (ops : List (MsgOp ow)) (m : Msg ow),
      let m' := ops.foldl (MsgOp.run e H) m
      m'.magic = (ops.filterMap MsgOp.magic?).getLastD m.magic ∧ m'.opcode = (ops.filterMap MsgOp.opcode?).getLastD m.opcode ∧
      (m'.noPayload = false → m'.payload = (ops.filterMap MsgOp.payload?).getLastD m.payload ∧ (m.noPayload = true → ops.filterMap MsgOp.payload? ≠ [])) := by
    intro ops
    induction ops with
    | nil => intro m; simp
    | cons o ops ih =>
      intro m
      rw [List.foldl_cons]
      obtain ⟨h1, h2, h3⟩ := ih (MsgOp.run e H m o)
      cases o with
      | setMagic v =>
        simp only [List.filterMap_cons, MsgOp.magic?, MsgOp.opcode?, MsgOp.payload?]
        refine ⟨?_, h2, h3⟩
        rw [List.getLastD_cons]; exact h1
      | setOpcode v =>
        simp only [List.filterMap_cons, MsgOp.magic?, MsgOp.opcode?, MsgOp.payload?]
        refine ⟨h1, ?_, h3⟩
        rw [List.getLastD_cons]; exact h2
      | setPayload p =>
        simp only [List.filterMap_cons, MsgOp.magic?, MsgOp.opcode?, MsgOp.payload?]
        refine ⟨h1, h2, fun hn => ⟨?_, by simp⟩⟩
        rw [List.getLastD_cons]; exact (h3 hn).1
      | setChecksum =>
        have e1 : (MsgOp.run e H m .setChecksum).magic = m.magic ∧ (MsgOp.run e H m .setChecksum).opcode = m.opcode ∧
            (MsgOp.run e H m .setChecksum).payload = m.payload ∧ (MsgOp.run e H m .setChecksum).noPayload = m.noPayload := by
          simp only [MsgOp.run, Msg.setChecksum, Msg.getChecksum]
          cases hn : m.noPayload <;> simp [hn]
        rw [e1.1] at h1; rw [e1.2.1] at h2; rw [e1.2.2.1, e1.2.2.2] at h3
        simp only [List.filterMap_cons, MsgOp.magic?, MsgOp.opcode?, MsgOp.payload?]
        exact ⟨h1, h2, h3⟩
      | getPayload =>
        have e1 : (MsgOp.run e H m .getPayload).magic = m.magic ∧ (MsgOp.run e H m .getPayload).opcode = m.opcode ∧
            (MsgOp.run e H m .getPayload).noPayload = true := by
          simp only [MsgOp.run, Msg.getPayload]
          cases hn : m.noPayload <;> simp [hn]
        rw [e1.1] at h1; rw [e1.2.1] at h2
        simp only [List.filterMap_cons, MsgOp.magic?, MsgOp.opcode?, MsgOp.payload?]
        refine ⟨h1, h2, fun hn => ?_⟩
        obtain ⟨h4, h5⟩ := h3 hn
        have h5 := h5 e1.2.2
        refine ⟨?_, fun _ => h5⟩
        rw [h4]
        cases h : ops.filterMap MsgOp.payload? with
        | nil => exact absurd h h5
        | cons a b => rw [List.getLastD_cons, List.getLastD_cons]
  have hinit : m.magic = magic ∧ m.opcode = op ∧ (p = some m.payload ∨ p = none ∧ m.noPayload = true) := by
    cases hm with
    | typed _ _ s _ hs hm =>
      simp only [Msg.ofTyped] at hm
      split at hm
      · rename_i p hp
        simp only [Msg.setChecksum, Msg.getChecksum, Msg.setPayload, Msg.setOpcode, Msg.fresh,
          Bool.false_eq_true, if_false, Option.map_some, Option.some.injEq] at hm
        rw [← hm]
        refine ⟨rfl, rfl, .inl ?_⟩
        have h1 : s.toBytesLvalue = .ok s s.unread := by simp [DataStream.toBytesLvalue, hs.1, DataStream.unread]
        rw [h1] at hp
        cases hp
        rfl
      · cases hm
    | blank _ len sum => exact ⟨rfl, rfl, .inr ⟨rfl, rfl⟩⟩
    | header s _ hm => exact ⟨rfl, rfl, .inr ⟨rfl, ofHeader_bare hm⟩⟩
  obtain ⟨h1, h2, h3⟩ := inv ops m
  rw [hinit.1] at h1; rw [hinit.2.1] at h2
  intro m'
  refine ⟨?_, fun t m'' hg => ?_⟩
  · rw [serialize_eq]
    simp only [headerBytes, List.append_assoc]
    rw [← List.append_assoc, List.take_left' (by simp), ← h1, ← h2]
  · simp only [Msg.getPayload] at hg
    split at hg
    · cases hg
    · rename_i hn
      simp only [Option.some.injEq, Prod.mk.injEq] at hg
      rw [← hg.1]
      obtain ⟨h4, h5⟩ := h3 (by simpa using hn)
      show some (ops.foldl (MsgOp.run e H) m).payload = _
      rw [h4]
      cases hl : ops.filterMap MsgOp.payload? with
      | nil =>
        rcases hinit.2.2 with hp | ⟨_, hp⟩
        · rw [hp]; rfl
        · exact absurd hl (h5 hp)
      | cons a l => rw [List.getLastD_eq_getLast?, List.getLast?_cons]; rfl

example : (([.setMagic 5, .setPayload [7, 7], .setChecksum, .setOpcode 9] : List (MsgOp 1)).foldl
    (MsgOp.run .little (fun _ => [1, 2, 3, 4])) ⟨0, 3, 3, 0, [1, 2, 3], false⟩).serialize .little
    = [5, 0, 0, 0, 9, 2, 0, 0, 0, 1, 2, 3, 4, 7, 7] := by decide

/-- C19.  For every list of fewer than 2^32 set hashes (of `n` words of `w` bytes), a stream that
starts with what gen_hash_list appended parses back to the list, consuming exactly that; if the stream
ends anywhere before the end of the list, parsing throws. -/
theorem C19_hash_list (e e' : Endian) (w n : Nat) (hw : 0 < w) (hw2 : w < 2 ^ 63)
    (hs : List (Blob w)) (h32 : hs.length < 2 ^ 32)
    (hset : ∀ h ∈ hs, h.data.length = n ∧ h.isNull = false) :
    ∃ bytes, (∀ s0, Msg.genHashList e s0 hs = s0.putData bytes) ∧
      (∀ (s : DataStream) (rest : List Byte), s.Wf → s.unread = bytes ++ rest →
        ∃ t, Msg.parseHashList e' w n s = some (hs, t) ∧ t.unread = rest) ∧
      (∀ (s : DataStream) (k : Nat), s.Wf → k < bytes.length → s.unread = bytes.take k →
        Msg.parseHashList e' w n s = none) := by
  have hset' : ∀ h ∈ hs, h.data.length = n ∧ h.loaded = true :=
    fun h hh => ⟨(hset h hh).1, by simpa [Blob.isNull] using (hset h hh).2⟩
  refine ⟨Spec.leEnc 4 hs.length ++ hs.flatMap (fun h => Blob.wordBytes h.data), ?_, ?_, ?_⟩
  · intro s0
    rw [genHashList_eq e s0 hs h32 (fun h hh => (hset' h hh).2), DataStream.putData]
  · intro s rest hwf hu
    rw [List.append_assoc] at hu
    obtain ⟨s1, h1, w1, u1⟩ := getInt_app hwf e' (w := 4) (by simp) hu
    obtain ⟨t, h2, _, h3⟩ := parseHashes_ok e' hs s1 w1 hset' u1
    refine ⟨t, ?_, h3⟩
    simp only [parseHashList, h1, letoh_len e' h32, h2]
  · intro s k hwf hk hu
    simp only [parseHashList]
    by_cases h4 : 4 ≤ k
    · rw [List.take_append, List.take_of_length_le (by simpa using h4)] at hu
      obtain ⟨s1, h1, w1, u1⟩ := getInt_app hwf e' (w := 4) (by simp) hu
      simp only [h1, letoh_len e' h32]
      apply parseHashes_short hw hw2 e' _ _ w1
      rw [u1]
      simp only [List.length_append, Spec.leEnc_length] at hk
      rw [flatMap_len hs (fun h hh => (hset' h hh).1)] at hk
      simp only [List.length_take, Spec.leEnc_length]
      omega
    · have : s.unread.length < 4 := by rw [hu]; simp; omega
      rw [DataStream.getInt_short hwf (by omega) this]

example : Msg.parseHashList .big 1 2 (Msg.genHashList (w := 1) .little DataStream.empty
    [⟨[1, 2], true⟩, ⟨[3, 4], true⟩]) = some ([⟨[1, 2], true⟩, ⟨[3, 4], true⟩],
      ⟨[2, 0, 0, 0, 1, 2, 3, 4], 8⟩) := by decide

end Salticidae
