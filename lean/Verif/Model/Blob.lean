import Verif.Model.Stream
/-
Model of Blob<N, T> (uint256_t = Blob<256, uint64_t>), include/salticidae/stream.h:233-315.
`w` is sizeof(T), `n` the number of words (`_len`), so N = 8 * w * n.
-/
namespace Salticidae

/-- `Blob`, stream.h:233-240: the words, least significant first, and the `loaded` flag. -/
structure Blob (w : Nat) where
  data : List (BitVec (8 * w))
  loaded : Bool
  deriving DecidableEq, Repr

namespace Blob

/-- `Blob()`, stream.h:244. -/
def null (w n : Nat) : Blob w := ⟨List.replicate n 0, false⟩

/-- Inner loop of `load`, stream.h:257-259: `x = (x << 8) | *(--arr)` over the given bytes
(in the order in which they are visited, i.e. downwards in memory). -/
def loadWord (w : Nat) (rev : List Byte) : BitVec (8 * w) :=
  rev.foldl (fun x b => (x <<< 8) ||| b.setWidth (8 * w)) 0

/-- Outer loop of `load`, stream.h:255-261; `rev` are the bytes not visited yet, last one first;
words are stored from the last to the first. -/
def loadLoop (w : Nat) : Nat → List Byte → List (BitVec (8 * w)) → List (BitVec (8 * w))
  | 0, _, acc => acc
  | n + 1, rev, acc => loadLoop w n (rev.drop w) (loadWord w (rev.take w) :: acc)

/-- `load`, stream.h:253-263, for an array of exactly `w * n` readable bytes. -/
def load (w n : Nat) (arr : List Byte) : Blob w := ⟨loadLoop w n arr.reverse [], true⟩

/-- `Blob(const bytearray_t &)`, stream.h:245-249; `none`: std::invalid_argument. -/
def ofBytes (w n : Nat) (arr : List Byte) : Option (Blob w) :=
  if arr.length ≠ w * n then none else some (load w n arr)

/-- `is_null`, stream.h:265. -/
def isNull (b : Blob w) : Bool := !b.loaded

/-- Loop of `operator==`, stream.h:267-272. -/
def eqLoop {w : Nat} : List (BitVec (8 * w)) → List (BitVec (8 * w)) → Bool
  | x :: xs, y :: ys => if x ≠ y then false else eqLoop xs ys
  | _, _ => true

/-- `operator==`, stream.h:267-272. -/
def eq (a b : Blob w) : Bool := eqLoop a.data b.data

/-- `operator!=`, stream.h:274-276. -/
def ne (a b : Blob w) : Bool := !a.eq b

/-- Loop of `operator<`, stream.h:278-283, over the words from the most significant one down to
`data[0]`, which decides when all others agree. -/
def ltLoop {w : Nat} : List (BitVec (8 * w)) → List (BitVec (8 * w)) → Bool
  | [x], [y] => x.toNat < y.toNat
  | x :: xs, y :: ys => if x ≠ y then x.toNat < y.toNat else ltLoop xs ys
  | _, _ => false

/-- `operator<`, stream.h:278-283. -/
def lt (a b : Blob w) : Bool := ltLoop a.data.reverse b.data.reverse

/-- `cheap_hash`, stream.h:285: the first word as a `size_t`. -/
def cheapHash (b : Blob w) : Option Nat := (b.data.head?).map fun x => x.toNat % sizeMod

/-- `serialize`, stream.h:287-298. -/
def serialize (e : Endian) (b : Blob w) (s : DataStream) : DataStream :=
  if b.loaded then b.data.foldl (fun s x => s.putInt e (htole e x)) s
  else b.data.foldl (fun s _ => s.putInt e (htole e (0 : BitVec (8 * w)))) s

/-- Loop of `unserialize`, stream.h:301-306: words read so far and the stream; `false` if it threw. -/
def unserLoop (e : Endian) (w : Nat) : Nat → DataStream → List (BitVec (8 * w)) × DataStream × Bool
  | 0, s => ([], s, true)
  | n + 1, s =>
    match s.getInt e w with
    | .ok s' x =>
      let (r, s'', k) := unserLoop e w n s'
      (letoh e x :: r, s'', k)
    | _ => ([], s, false)

/-- `unserialize`, stream.h:300-308: state of the blob and of the stream afterwards, and whether it
returned normally.  When it throws, the words read so far have been overwritten and `loaded` is
unchanged. -/
def unserialize (e : Endian) (b : Blob w) (s : DataStream) : Blob w × DataStream × Bool :=
  let (ws, s', k) := unserLoop e w b.data.length s
  (⟨ws ++ b.data.drop ws.length, if k then true else b.loaded⟩, s', k)

/-- `operator bytearray_t`, stream.h:310-314. -/
def toBytes (e : Endian) (b : Blob w) : List Byte := (b.serialize e DataStream.empty).buffer

end Blob
end Salticidae
