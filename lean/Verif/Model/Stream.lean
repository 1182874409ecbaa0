import Verif.Spec.Bytes
/-
Model of include/salticidae/stream.h (class DataStream), include/salticidae/type.h (htole/letoh)
and of the C bindings of DataStream in src/stream.cpp.

Simplifications, for the whole module:
* the object representation of an integer type of `w` bytes is the list of its `w` bytes in the
  byte order of the host (`Endian`); alignment and strict-aliasing rules are not modelled, nor is
  the formal undefinedness of `&*buffer.end()`;
* allocation failure is not modelled; a byte vector has fewer than 2^63 elements (PTRDIFF_MAX);
* `size_t` is 64 bits wide: `offset` is a number below 2^64 and sums wrap.
-/
namespace Salticidae

/-- Byte order of the host. -/
inductive Endian | little | big
  deriving DecidableEq, Repr

/-- Outcome of a C++ call on an object of type `σ`: normal return with the new object state and a
value, an exception with the state the object is left in, or undefined behaviour. -/
inductive Res (σ α : Type) where
  | ok (s : σ) (a : α)
  | throw (s : σ)
  | ub
  deriving Repr, DecidableEq

/-- One past the largest `size_t`. -/
def sizeMod : Nat := 2 ^ 64

/-- Object representation of an integer of `w` bytes on a host of byte order `e`
(what `*(reinterpret_cast<T *>(p)) = d` stores, stream.h:97). -/
def memEnc (e : Endian) {w : Nat} (v : BitVec (8 * w)) : List Byte :=
  match e with
  | .little => Spec.leEnc w v.toNat
  | .big => (Spec.leEnc w v.toNat).reverse

/-- Value of an integer of `w` bytes from its object representation
(what `d = *(reinterpret_cast<T *>(p))` loads, stream.h:145). -/
def memDec (e : Endian) (w : Nat) (bs : List Byte) : BitVec (8 * w) :=
  match e with
  | .little => BitVec.ofNat (8 * w) (Spec.leDec bs)
  | .big => BitVec.ofNat (8 * w) (Spec.leDec bs.reverse)

/-- Byte swap of a `w`-byte integer (what htole16/32/64 expand to on a big-endian host,
include/salticidae/endian.h). -/
def bswap {w : Nat} (v : BitVec (8 * w)) : BitVec (8 * w) :=
  BitVec.ofNat (8 * w) (Spec.leDec (Spec.leEnc w v.toNat).reverse)

/-- `htole`, type.h:55-63 (via the htole16/32/64 macros of endian.h). -/
def htole (e : Endian) {w : Nat} (v : BitVec (8 * w)) : BitVec (8 * w) :=
  match e with
  | .little => v
  | .big => bswap v

/-- `letoh`, type.h:55-63 (via the le16toh/le32toh/le64toh macros of endian.h). -/
def letoh (e : Endian) {w : Nat} (v : BitVec (8 * w)) : BitVec (8 * w) :=
  match e with
  | .little => v
  | .big => bswap v

/-- `DataStream`, stream.h:38-40. -/
structure DataStream where
  buffer : List Byte
  offset : Nat
  deriving Repr, DecidableEq

namespace DataStream

/-- `DataStream()`, stream.h:43. -/
def empty : DataStream := ⟨[], 0⟩

/-- `DataStream(bytearray_t)` and the constructors from a range or a string, stream.h:44-49. -/
def ofBytes (bs : List Byte) : DataStream := ⟨bs, 0⟩

/-- `clear`, stream.h:84-87. -/
def clear (_ : DataStream) : DataStream := ⟨[], 0⟩

/-- `size`, stream.h:89-91: `buffer.size() - offset` in `size_t`, so it wraps when the offset has
run past the end. -/
def size (s : DataStream) : Nat := (s.buffer.length + (sizeMod - s.offset % sizeMod)) % sizeMod

/-- `operator<<` for integral types, stream.h:93-99. -/
def putInt (e : Endian) {w : Nat} (s : DataStream) (v : BitVec (8 * w)) : DataStream :=
  { s with buffer := s.buffer ++ memEnc e v }

/-- `put_data` and `operator<<` for strings and byte arrays, stream.h:101-114 and 133-136. -/
def putData (s : DataStream) (bs : List Byte) : DataStream :=
  { s with buffer := s.buffer ++ bs }

/-- `get_data_inplace`, stream.h:116-124 (SALTICIDAE_NOCHECK undefined).  The offset is advanced
before the check.  The value is the start index of the returned pointer; the caller is entitled to
read `len` bytes from there. -/
def getDataInplace (s : DataStream) (len : Nat) : Res DataStream Nat :=
  let off' := (s.offset + len) % sizeMod
  if off' > s.buffer.length then .throw { s with offset := off' }
  else .ok { s with offset := off' } s.offset

/-- What a caller that copies the `len` bytes at the pointer returned by `get_data_inplace(len)`
obtains (e.g. `bytearray_t(base, base + len)`): undefined behaviour if they are not all inside the
buffer. -/
def getBlock (s : DataStream) (len : Nat) : Res DataStream (List Byte) :=
  match s.getDataInplace len with
  | .ok s' p => if p + len ≤ s.buffer.length then .ok s' ((s.buffer.drop p).take len) else .ub
  | .throw s' => .throw s'
  | .ub => .ub

/-- `operator>>` for integral types, stream.h:138-148.  Reading outside the buffer is undefined
behaviour: it happens when `offset + sizeof(T)` wraps. -/
def getInt (e : Endian) (w : Nat) (s : DataStream) : Res DataStream (BitVec (8 * w)) :=
  if (s.offset + w) % sizeMod > s.buffer.length then .throw s
  else if s.offset + w ≤ s.buffer.length then
    .ok { s with offset := s.offset + w } (memDec e w ((s.buffer.drop s.offset).take w))
  else .ub

/-- `operator bytearray_t() const &` and `operator std::string() const &`, stream.h:186-188,
194-196: an iterator range that starts past the end is undefined behaviour. -/
def toBytesLvalue (s : DataStream) : Res DataStream (List Byte) :=
  if s.offset ≤ s.buffer.length then .ok s (s.buffer.drop s.offset) else .ub

/-- `operator bytearray_t() &&`, stream.h:190-192 (`return buffer;` copies the buffer). -/
def toBytesRvalue (s : DataStream) : Res DataStream (List Byte) := .ok s s.buffer

/-- The lower-case text `sprintf("%02x")` produces for one byte, stream.h:162. -/
def hexOfByte (b : Byte) : List Char := [Spec.hexDigit (b.toNat / 16), Spec.hexDigit (b.toNat % 16)]

/-- `get_hex`, stream.h:157-166: walks from `buffer.begin() + offset` to `buffer.end()`; starting
past the end is undefined behaviour. -/
def getHex (s : DataStream) : Res DataStream (List Char) :=
  if s.offset ≤ s.buffer.length then .ok s ((s.buffer.drop s.offset).flatMap hexOfByte) else .ub

/-- `isspace` in the C locale. -/
def isCSpace (c : Char) : Bool :=
  c = ' ' || c = '\t' || c = '\n' || c = '\x0b' || c = '\x0c' || c = '\r'

/-- `sscanf(p, "%02x", &tmp)` on a NUL-terminated text (C11 7.21.6.2): leading white space is
skipped, then at most two characters are taken: an optional sign, an optional `0x`, hex digits.
`none`: the conversion fails; `some v`: one item was assigned.  A NUL character is neither white
space nor a digit, so it needs no special case.  `lax0x` selects between the two behaviours found
in C libraries when the two characters are `0x`: the C standard says matching failure (`false`),
older glibc yields 0 (`true`). -/
def scanHex2 (lax0x : Bool) (p : List Char) : Option Nat :=
  match p.dropWhile isCSpace with
  | [] => none
  | c :: rest =>
    if c = '+' then
      match rest with
      | d :: _ => Spec.hexVal d
      | [] => none
    else if c = '-' then
      match rest with
      | d :: _ => (Spec.hexVal d).map fun v => (2 ^ 32 - v) % 2 ^ 32
      | [] => none
    else
      match Spec.hexVal c with
      | none => none
      | some x =>
        match rest with
        | [] => some x
        | d :: _ =>
          if c = '0' ∧ (d = 'x' ∨ d = 'X') then (if lax0x then some 0 else none)
          else match Spec.hexVal d with
            | some y => some (16 * x + y)
            | none => some x

/-- The conversion loop of `load_hex`, stream.h:177-183: one conversion at every even position of
the text (the text after the position, not just two characters, is visible to sscanf). Returns the
bytes stored so far and whether the loop ran to the end. -/
def loadHexLoop (lax0x : Bool) : List Char → List Byte × Bool
  | a :: b :: cs =>
    match scanHex2 lax0x (a :: b :: cs) with
    | none => ([], false)
    | some v =>
      let (r, k) := loadHexLoop lax0x cs
      (BitVec.ofNat 8 v :: r, k)
  | _ => ([], true)

/-- `load_hex`, stream.h:168-184.  `std::vector::resize` keeps the old bytes (or zeros) where the
loop has not stored anything when an exception is thrown. -/
def loadHex (lax0x : Bool) (s : DataStream) (hex : List Char) : Res DataStream Unit :=
  if hex.length % 2 = 1 then .throw s
  else
    let n := hex.length / 2
    let resized := s.buffer.take n ++ List.replicate (n - s.buffer.length) 0
    let (bs, done) := loadHexLoop lax0x hex
    let s' : DataStream := ⟨bs ++ resized.drop bs.length, 0⟩
    if done then .ok s' () else .throw s'

/-- The unread bytes (not a library function; only for stating properties): what lies between the
read position and the end. -/
def unread (s : DataStream) : List Byte := s.buffer.drop s.offset

/-- Well-formed stream: the read position is inside the buffer, and the buffer is a possible
`std::vector<uint8_t>`. -/
def Wf (s : DataStream) : Prop := s.offset ≤ s.buffer.length ∧ s.buffer.length < 2 ^ 63

instance (s : DataStream) : Decidable s.Wf := by unfold Wf; exact inferInstance

/-- The C bindings `datastream_get_u8` .. `datastream_get_i64`, src/stream.cpp:102-110
(`val = 0; try { *self >> val; } catch (...) { *succ = false; } *succ = true; return val;`).
The result is the returned value and the final content of `*succ`. -/
def cGetInt (e : Endian) (w : Nat) (s : DataStream) : Res DataStream (BitVec (8 * w) × Bool) :=
  match s.getInt e w with
  | .ok s' v => .ok s' (v, true)
  | .throw s' => .ok s' (0#(8 * w), true)
  | .ub => .ub

end DataStream

/-! ### Heterogeneous sequences of stream operations -/

/-- One item written to a stream: an integer of `w` bytes or a block of bytes. -/
inductive Item where
  | int (w : Nat) (v : BitVec (8 * w))
  | block (bs : List Byte)

/-- The shape of an item, which is what a reader has to know to read it back. -/
inductive Shape where
  | int (w : Nat)
  | block (len : Nat)

/-- Shape of an item. -/
def Item.shape : Item → Shape
  | .int w _ => .int w
  | .block bs => .block bs.length

/-- `s << item`. -/
def DataStream.putItem (e : Endian) (s : DataStream) : Item → DataStream
  | .int _ v => s.putInt e v
  | .block bs => s.putData bs

/-- `s << i1 << i2 << ...`. -/
def DataStream.putItems (e : Endian) (s : DataStream) (l : List Item) : DataStream :=
  l.foldl (fun s i => s.putItem e i) s

/-- Read one item of a given shape (`s >> x`, or a copy of `s.get_data_inplace(len)`). -/
def DataStream.getItem (e : Endian) (s : DataStream) : Shape → Res DataStream Item
  | .int w => match s.getInt e w with
    | .ok s' v => .ok s' (.int w v)
    | .throw s' => .throw s'
    | .ub => .ub
  | .block len => match s.getBlock len with
    | .ok s' bs => .ok s' (.block bs)
    | .throw s' => .throw s'
    | .ub => .ub

/-- Read items of the given shapes one after the other, stopping at the first failure. -/
def DataStream.getItems (e : Endian) (s : DataStream) : List Shape → Res DataStream (List Item)
  | [] => .ok s []
  | sh :: shs => match s.getItem e sh with
    | .ok s' i => match s'.getItems e shs with
      | .ok s'' is => .ok s'' (i :: is)
      | .throw s'' => .throw s''
      | .ub => .ub
    | .throw s' => .throw s'
    | .ub => .ub

end Salticidae
