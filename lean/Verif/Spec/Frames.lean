import Verif.Spec.Bytes
/-
Specification of the wire format, independent of the model: a byte stream is a sequence of frames
  magic (4 bytes, little endian) | opcode (ow bytes) | length (4, LE) | checksum (4, LE) | payload
`messages` is the list of messages a receiver has to deliver for a byte stream: the frames that are
complete, up to the first one whose announced length exceeds `max`, without those whose checksum is
wrong.
-/
namespace Salticidae.Spec

/-- A message as seen on the wire. -/
structure Frame where
  magic : Nat
  opcode : List Byte
  checksum : Nat
  payload : List Byte
  deriving DecidableEq, Repr

/-- Wire bytes of a frame. -/
def Frame.enc (f : Frame) : List Byte :=
  leEnc 4 f.magic ++ f.opcode ++ leEnc 4 f.payload.length ++ leEnc 4 f.checksum ++ f.payload

/-- Receiver parameters: opcode width, maximal payload length, and the checksum rule
(announced checksum, payload). -/
structure Rule where
  ow : Nat
  max : Nat
  good : Nat → List Byte → Bool

/-- Announced payload length of a byte stream with a complete header. -/
def frameLen (ow : Nat) (bs : List Byte) : Nat := leDec ((bs.drop (4 + ow)).take 4)

/-- The first frame of a byte stream with a complete header and payload. -/
def frameOf (ow : Nat) (bs : List Byte) : Frame :=
  { magic := leDec (bs.take 4)
    opcode := (bs.drop 4).take ow
    checksum := leDec ((bs.drop (8 + ow)).take 4)
    payload := (bs.drop (12 + ow)).take (frameLen ow bs) }

/-- The complete frames at the start of a byte stream, up to the first header that announces more
than `max` bytes; the flag tells whether there is such a header. -/
def split (ow max : Nat) (bs : List Byte) : List Frame × Bool :=
  if bs.length < 12 + ow then ([], false)
  else if frameLen ow bs > max then ([], true)
  else if bs.length < 12 + ow + frameLen ow bs then ([], false)
  else
    let r := split ow max (bs.drop (12 + ow + frameLen ow bs))
    (frameOf ow bs :: r.1, r.2)
  termination_by bs.length
  decreasing_by simp only [List.length_drop]; omega

/-- The messages to deliver for a byte stream. -/
def messages (r : Rule) (bs : List Byte) : List Frame :=
  (split r.ow r.max bs).1.filter fun f => r.good f.checksum f.payload

/-- The byte stream has a header announcing more than `max` bytes, at a frame boundary. -/
def oversized (r : Rule) (bs : List Byte) : Bool := (split r.ow r.max bs).2

/-- No complete frame of the byte stream has a wrong checksum. -/
def clean (r : Rule) (bs : List Byte) : Bool :=
  (split r.ow r.max bs).1.all fun f => r.good f.checksum f.payload

/-- A frame that can be sent: fields fit in the header, payload within the limit. -/
def Frame.Valid (ow max : Nat) (f : Frame) : Prop :=
  f.opcode.length = ow ∧ f.magic < 2 ^ 32 ∧ f.checksum < 2 ^ 32 ∧ f.payload.length < 2 ^ 32 ∧
    f.payload.length ≤ max

end Salticidae.Spec
