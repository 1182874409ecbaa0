import Verif.Model.Stream
/-
Model of _Bits<T> (Bits = _Bits<uint64_t>), include/salticidae/stream.h:317-429.
`w` is sizeof(T) (1, 2, 4 or 8); `nbits` and `ndata` are uint32_t, so sums wrap at 2^32.
Memory obtained from `new T[ndata]` is uninitialised: its content is the parameter `junk`.
Reading or writing an element outside the array, dereferencing a null array, shifting an `int` by 32
or more, and using the indeterminate `nbits` of a default-constructed object are undefined behaviour.
-/
namespace Salticidae

/-- `_Bits`, stream.h:317-325: the array (`none` = null) and the two counters. -/
structure Bits (w : Nat) where
  data : Option (List (BitVec (8 * w)))
  nbits : Nat
  ndata : Nat
  deriving DecidableEq, Repr

/-- Outcome of an operation that does not throw. -/
inductive Out (α : Type) where
  | ok (a : α)
  | ub
  deriving DecidableEq, Repr

/-- The outcome is a value satisfying `p` (used in examples). -/
def Out.all (p : α → Bool) : Out α → Bool
  | .ok a => p a
  | .ub => false

namespace Bits

/-- `ndata = (nbits + bit_per_datum - 1) / bit_per_datum` in uint32_t, stream.h:341, 349, 383. -/
def ndataOf (w nbits : Nat) : Nat := ((nbits + 8 * w - 1) % 2 ^ 32) / (8 * w)

/-- `_Bits(uint32_t nbits)`, stream.h:340-343; `junk` is the content of the fresh array. -/
def ofSize (w nbits : Nat) (junk : List (BitVec (8 * w))) : Bits w :=
  ⟨some (junk.take (ndataOf w nbits)), nbits, ndataOf w nbits⟩

/-- `*(arr++) << k`, stream.h:357: the byte is promoted to `int` (32 bits); shifting by 32 or more is
undefined; a bit shifted into the sign position gives the negative number with that bit pattern
(C++14 with CWG 1457). -/
def shiftInt (b : Byte) (k : Nat) : Out (BitVec 32) :=
  if k < 32 then .ok ((b.setWidth 32) <<< k) else .ub

/-- Inner loop of `load`, stream.h:355-357: `fuel` iterations left, shift amount `k`, remaining bytes;
`x |= <int>` converts the `int` to T (sign extension if T is wider). -/
def loadWord (w : Nat) : Nat → Nat → List Byte → BitVec (8 * w) → Out (BitVec (8 * w) × List Byte)
  | 0, _, arr, x => .ok (x, arr)
  | j + 1, k, [], x => loadWord w j (k + 8) [] x
  | j + 1, k, b :: arr, x =>
    match shiftInt b k with
    | .ok v => loadWord w j (k + 8) arr (x ||| v.signExtend (8 * w))
    | .ub => .ub

/-- Outer loop of `load`, stream.h:353-359. -/
def loadLoop (w : Nat) : Nat → List Byte → Out (List (BitVec (8 * w)))
  | 0, _ => .ok []
  | n + 1, arr =>
    match loadWord w w 0 arr 0 with
    | .ok (x, arr') =>
      match loadLoop w n arr' with
      | .ok ws => .ok (x :: ws)
      | .ub => .ub
    | .ub => .ub

/-- `load` and the constructors from bytes, stream.h:330-332, 339, 347-360. The length is converted
to uint32_t. -/
def load (w : Nat) (arr : List Byte) : Out (Bits w) :=
  let len := arr.length % 2 ^ 32
  let nbits := (len * 8) % 2 ^ 32
  match loadLoop w (ndataOf w nbits) (arr.take len) with
  | .ok ws => .ok ⟨some ws, nbits, ndataOf w nbits⟩
  | .ub => .ub

/-- `get` and `operator[]`, stream.h:399-402, 426. -/
def get (b : Bits w) (idx : Nat) : Out Bool :=
  match b.data with
  | none => .ub
  | some ws => match ws[idx / (8 * w)]? with
    | none => .ub
    | some x => .ok ((x >>> (idx % (8 * w))).getLsbD 0)

/-- Common part of set/unset/flip: replace word `idx >> shift` by `f word pos`. -/
def modify (b : Bits w) (idx : Nat) (f : BitVec (8 * w) → Nat → BitVec (8 * w)) : Out (Bits w) :=
  match b.data with
  | none => .ub
  | some ws => match ws[idx / (8 * w)]? with
    | none => .ub
    | some x => .ok { b with data := some (ws.set (idx / (8 * w)) (f x (idx % (8 * w)))) }

/-- `set`, stream.h:404-408. -/
def set (b : Bits w) (idx : Nat) : Out (Bits w) :=
  b.modify idx fun x pos => x ^^^ ((((x >>> pos) &&& 1) ^^^ 1) <<< pos)

/-- `unset`, stream.h:410-414. -/
def unset (b : Bits w) (idx : Nat) : Out (Bits w) :=
  b.modify idx fun x pos => x ^^^ (((x >>> pos) &&& 1) <<< pos)

/-- `flip`, stream.h:416-420. -/
def flip (b : Bits w) (idx : Nat) : Out (Bits w) :=
  b.modify idx fun x pos => x ^^^ ((1 : BitVec (8 * w)) <<< pos)

/-- `clear`, stream.h:422-424: memset of `ndata` words (undefined on a null array). -/
def clear (b : Bits w) : Out (Bits w) :=
  match b.data with
  | none => .ub
  | some ws => .ok { b with data := some (List.replicate b.ndata 0 ++ ws.drop b.ndata) }

/-- `size`, stream.h:428. -/
def size (b : Bits w) : Nat := b.nbits

/-- `serialize`, stream.h:366-378.  On a default-constructed object `nbits` and `ndata` are
indeterminate, which is undefined behaviour; the `else` branch (null array) is only reachable so. -/
def serialize (e : Endian) (b : Bits w) (s : DataStream) : Out DataStream :=
  match b.data with
  | none => .ub
  | some ws =>
    if b.ndata ≤ ws.length then
      .ok ((ws.take b.ndata).foldl (fun s x => s.putInt e (htole e x))
        (s.putInt e (w := 4) (htole e (w := 4) (BitVec.ofNat 32 b.nbits))))
    else .ub

/-- Loop of `unserialize`, stream.h:385-390; `none`: the read threw. -/
def unserLoop (e : Endian) (w : Nat) : Nat → DataStream → Option (List (BitVec (8 * w)) × DataStream)
  | 0, s => some ([], s)
  | n + 1, s =>
    match s.getInt e w with
    | .ok s' x => match unserLoop e w n s' with
      | some (r, s'') => some (letoh e x :: r, s'')
      | none => none
    | _ => none

/-- `unserialize`, stream.h:380-391, as far as successful returns are concerned: `none` means that it
threw (the object is then left half-overwritten). -/
def unserialize (e : Endian) (w : Nat) (s : DataStream) : Option (Bits w × DataStream) :=
  match s.getInt e 4 with
  | .ok s' x =>
    let nbits := (letoh e (w := 4) x).toNat
    match unserLoop e w (ndataOf w nbits) s' with
    | some (ws, s'') => some (⟨some ws, nbits, ndataOf w nbits⟩, s'')
    | none => none
  | _ => none

end Bits
end Salticidae
