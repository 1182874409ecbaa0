import Verif.Model.Bits
/-
Model of SegBuffer, include/salticidae/buffer.h:8-118.
The iterator `offset` of a segment is the index it points to.  `_size` is a size_t (mod 2^64).
-/
namespace Salticidae

/-- `buffer_entry_t`, buffer.h:10-33. -/
structure Seg where
  data : List Byte
  off : Nat
  deriving DecidableEq, Repr

/-- `length`, buffer.h:33. -/
def Seg.length (s : Seg) : Nat := s.data.length - s.off

/-- `SegBuffer`, buffer.h:36-38. -/
structure SegBuffer where
  segs : List Seg
  sz : Nat
  deriving DecidableEq, Repr

namespace SegBuffer

/-- `SegBuffer()`, buffer.h:41. -/
def empty : SegBuffer := ⟨[], 0⟩

/-- `rewind`, buffer.h:76-79. -/
def rewind (b : SegBuffer) (data : List Byte) : SegBuffer :=
  ⟨⟨data, 0⟩ :: b.segs, (b.sz + data.length) % sizeMod⟩

/-- `push`, buffer.h:81-84. -/
def push (b : SegBuffer) (data : List Byte) : SegBuffer :=
  ⟨b.segs ++ [⟨data, 0⟩], (b.sz + data.length) % sizeMod⟩

/-- `move_pop`, buffer.h:86-91: undefined behaviour on an empty list; the whole data vector of the
first segment is returned, whatever its offset. -/
def movePop (b : SegBuffer) : Out (List Byte × SegBuffer) :=
  match b.segs with
  | [] => .ub
  | s :: segs => .ok (s.data, ⟨segs, (b.sz + (sizeMod - s.data.length % sizeMod)) % sizeMod⟩)

/-- Loop of `pop`, buffer.h:97-105: the bytes copied and the remaining segments. -/
def popLoop : Nat → List Seg → List Byte × List Seg
  | _, [] => ([], [])
  | 0, s :: segs => ([], s :: segs)
  | len + 1, s :: segs =>
    let n := min s.length (len + 1)
    let chunk := (s.data.drop s.off).take n
    if s.off + n = s.data.length then
      let (r, segs') := popLoop (len + 1 - n) segs
      (chunk ++ r, segs')
    else
      (chunk, { s with off := s.off + n } :: segs)

/-- `pop`, buffer.h:93-108.  When the loop does not advance past a segment, `len` has become 0. -/
def pop (b : SegBuffer) (len : Nat) : List Byte × SegBuffer :=
  let (r, segs) := popLoop len b.segs
  (r, ⟨segs, (b.sz + (sizeMod - r.length % sizeMod)) % sizeMod⟩)

/-- `size`, buffer.h:110. -/
def size (b : SegBuffer) : Nat := b.sz

/-- `len`, buffer.h:111: the number of segments. -/
def len (b : SegBuffer) : Nat := b.segs.length

/-- `empty`, buffer.h:112. -/
def isEmpty (b : SegBuffer) : Bool := b.segs.isEmpty

/-- `clear`, buffer.h:114-117. -/
def clear (_ : SegBuffer) : SegBuffer := ⟨[], 0⟩

end SegBuffer
end Salticidae
