import Verif.Model.Blob
/-
Model of MsgBase<OpcodeType>, include/salticidae/msg.h:41-270 (checksums enabled,
SALTICIDAE_NOCHECK undefined, as in the default build).
`ow` is sizeof(OpcodeType), an unsigned integer type.
Simplifications: the hash function (SHA1 of OpenSSL, crypto.h) is the parameter `H`, from payload to
digest bytes; the indeterminate `length` and `checksum` of a default-constructed or moved-from
message are arbitrary values, given as arguments; allocation failure is not modelled.
-/
namespace Salticidae

/-- `MsgBase`, msg.h:47-57. -/
structure Msg (ow : Nat) where
  magic : BitVec (8 * 4)
  opcode : BitVec (8 * ow)
  length : BitVec (8 * 4)
  checksum : BitVec (8 * 4)
  payload : List Byte
  noPayload : Bool
  deriving DecidableEq, Repr

namespace Msg

/-- `header_size`, msg.h:262-270. -/
def headerSize (ow : Nat) : Nat := 4 + ow + 4 + 4

/-- `MsgBase(uint32_t magic)`, msg.h:60, with the indeterminate fields `len` and `sum`. -/
def fresh (magic : BitVec (8 * 4)) (len sum : BitVec (8 * 4)) : Msg ow :=
  ⟨magic, BitVec.ofNat _ 0xff, len, sum, [], true⟩

/-- `set_payload(bytearray_t &&)`, msg.h:178-184: the length is truncated to uint32_t. -/
def setPayload (m : Msg ow) (p : List Byte) : Msg ow :=
  { m with payload := p, noPayload := false, length := BitVec.ofNat _ p.length }

/-- `set_payload(DataStream &&)`, msg.h:174-176: `bytearray_t(std::move(s))` is the rvalue conversion,
which yields the whole buffer. -/
def setPayloadStream (m : Msg ow) (s : DataStream) : Msg ow := m.setPayload s.buffer

/-- `set_magic`, msg.h:157-159. -/
def setMagic (m : Msg ow) (v : BitVec (8 * 4)) : Msg ow := { m with magic := v }

/-- `set_opcode`, msg.h:161-163. -/
def setOpcode (m : Msg ow) (v : BitVec (8 * ow)) : Msg ow := { m with opcode := v }

/-- The first four bytes of the digest as a uint32_t, msg.h:215-220. -/
def checksumOf (e : Endian) (H : List Byte → List Byte) (p : List Byte) : BitVec (8 * 4) :=
  memDec e 4 ((H p).take 4)

/-- `get_checksum`, msg.h:206-222; `none`: throws std::runtime_error. -/
def getChecksum (e : Endian) (H : List Byte → List Byte) (m : Msg ow) : Option (BitVec (8 * 4)) :=
  if m.noPayload then none else some (checksumOf e H m.payload)

/-- `set_checksum`, msg.h:186-190; `none`: throws. -/
def setChecksum (e : Endian) (H : List Byte → List Byte) (m : Msg ow) : Option (Msg ow) :=
  (m.getChecksum e H).map fun c => { m with checksum := c }

/-- `verify_checksum`, msg.h:224-226; `none`: throws. -/
def verifyChecksum (e : Endian) (H : List Byte → List Byte) (m : Msg ow) : Option Bool :=
  (m.getChecksum e H).map fun c => m.checksum == c

/-- `get_payload`, msg.h:165-172: hands the payload over and leaves the message without it; `none`:
throws. -/
def getPayload (m : Msg ow) : Option (DataStream × Msg ow) :=
  if m.noPayload then none
  else some (DataStream.ofBytes m.payload, { m with payload := [], noPayload := true })

/-- `MsgBase(const MsgType &, uint32_t magic)`, msg.h:62-67.  `serialized` is the stream of the typed
message; it is const, so the conversion used is the one for lvalues: the unread bytes.  Undefined
behaviour (`none`) if the stream's offset is past its end. -/
def ofTyped (e : Endian) (H : List Byte → List Byte) (opcode : BitVec (8 * ow))
    (serialized : DataStream) (magic : BitVec (8 * 4)) : Option (Msg ow) :=
  match serialized.toBytesLvalue with
  | .ok _ p =>
    ((fresh magic 0 0 : Msg ow).setOpcode opcode |>.setPayload p).setChecksum e H
  | _ => none

/-- `MsgBase(DataStream &&)`, msg.h:98-118: parse a header.  `none`: one of the reads threw. -/
def ofHeader (e : Endian) (ow : Nat) (s : DataStream) : Option (Msg ow) :=
  match s.getInt e 4 with
  | .ok s1 m => match s1.getInt e ow with
    | .ok s2 o => match s2.getInt e 4 with
      | .ok s3 l => match s3.getInt e 4 with
        | .ok _ c => some ⟨letoh e m, o, letoh e l, letoh e c, [], true⟩
        | _ => none
      | _ => none
    | _ => none
  | _ => none

/-- `serialize`, msg.h:229-239.  The opcode is written in host byte order.  `bytearray_t(std::move(s))`
yields the whole buffer. -/
def serialize (e : Endian) (m : Msg ow) : List Byte :=
  ((((DataStream.empty.putInt e (htole e m.magic)).putInt e m.opcode).putInt e
    (htole e m.length)).putInt e (htole e m.checksum)).putData m.payload |>.buffer

/-- `gen_hash_list`, msg.h:241-246 (uint256_t = Blob of `n` words of `w` bytes). -/
def genHashList (e : Endian) (s : DataStream) (hs : List (Blob w)) : DataStream :=
  hs.foldl (fun s h => h.serialize e s) (s.putInt e (htole e (w := 4) (BitVec.ofNat 32 hs.length)))

/-- Loop of `parse_hash_list`, msg.h:256-257; `none`: a read threw. -/
def parseHashes (e : Endian) (w n : Nat) : Nat → DataStream → Option (List (Blob w) × DataStream)
  | 0, s => some ([], s)
  | k + 1, s =>
    match (Blob.null w n).unserialize e s with
    | (b, s', true) => match parseHashes e w n k s' with
      | some (bs, s'') => some (b :: bs, s'')
      | none => none
    | _ => none

/-- `parse_hash_list`, msg.h:248-258 (the vector is cleared and resized to default blobs). -/
def parseHashList (e : Endian) (w n : Nat) (s : DataStream) : Option (List (Blob w) × DataStream) :=
  match s.getInt e 4 with
  | .ok s' x => parseHashes e w n (letoh e (w := 4) x).toNat s'
  | _ => none

end Msg
end Salticidae
