import Verif.Model.StreamVar
/-
What programs over stream variables have to see: a stream is a queue of bytes, its unread bytes.
Uses from the model only the program syntax (`Op`), the outputs (`Out`) and the machine (`Cfg`:
byte order for the representation of integers, the hash function).
-/
namespace Salticidae.Spec.StreamVar
open Salticidae.StreamVar (Cfg Op Out)

/-- A variable: a queue of bytes, or moved from (its value is unspecified).  The flags do not
influence any output; they record facts about the past that `careful` speaks of: some bytes have
been read; a block read has failed. -/
inductive Cell where
  | val (rest : List Byte) (started broken : Bool)
  | moved
  deriving DecidableEq

abbrev Env := Nat → Option Cell

def set (s : Env) (x : Nat) (c : Option Cell) : Env := fun z => if z = x then c else s z

/-- A statement about a variable that has a value. -/
def on (s : Env) (x : Nat) (f : List Byte → Bool → Bool → Option Cell × Out) : Option (Env × Out) :=
  match s x with
  | some (.val r a b) => some (set s x (f r a b).1, (f r a b).2)
  | _ => none

/-- The value of an integer read from bytes. -/
def intOf (e : Endian) (bs : List Byte) : Nat :=
  match e with
  | .little => leDec bs
  | .big => leDec bs.reverse

/-- The bytes of an integer. -/
def ofInt (e : Endian) (w n : Nat) : List Byte :=
  match e with
  | .little => leEnc w n
  | .big => (leEnc w n).reverse

/-- Two lower-case digits per byte. -/
def hexText (bs : List Byte) : List Char :=
  bs.flatMap fun b => [hexDigit (b.toNat / 16), hexDigit (b.toNat % 16)]

/-- One statement; `none`: not a legitimate statement (a variable that does not exist, exists
already, has been moved from, or more bytes of a stream than there are). -/
def step (g : Cfg) (s : Env) : Op → Option (Env × Out)
  | .new x => match s x with
    | none => some (set s x (some (.val [] false false)), .none)
    | _ => none
  | .bytes x bs => match s x with
    | none => some (set s x (some (.val bs false false)), .none)
    | _ => none
  | .copy x y => match s x, s y with
    | none, some (.val r a b) => some (set s x (some (.val r a b)), .none)
    | _, _ => none
  | .move x y => match s x, s y with
    | none, some (.val r a b) => some (set (set s y (some .moved)) x (some (.val r a b)), .none)
    | _, _ => none
  | .assign x y => match s x, s y with
    | some _, some (.val r a b) => some (set s x (some (.val r a b)), .none)
    | _, _ => none
  | .moveAssign x y => match s x, s y with
    | some _, some (.val r a b) =>
      if x = y then some (s, .none) else some (set (set s y (some .moved)) x (some (.val r a b)), .none)
    | _, _ => none
  | .swap x y => match s x, s y with
    | some c, some d => some (set (set s x (some d)) y (some c), .none)
    | _, _ => none
  | .destroy x => match s x with
    | some _ => some (set s x none, .none)
    | none => none
  | .clear x => match s x with
    | some _ => some (set s x (some (.val [] false false)), .none)
    | none => none
  | .putInt x w v => on s x fun r a b => (some (.val (r ++ ofInt g.e w v.toNat) a b), .none)
  | .put x bs => on s x fun r a b => (some (.val (r ++ bs) a b), .none)
  | .putFrom x y n _ => match s y with
    | some (.val r' _ _) =>
      if n ≤ r'.length then on s x fun r a b => (some (.val (r ++ r'.take n) a b), .none) else none
    | _ => none
  | .getInt x w => on s x fun r a b =>
      if w ≤ r.length then (some (.val (r.drop w) true b), .num (intOf g.e (r.take w)))
      else (some (.val r a b), .failed)
  | .getBlock x n => on s x fun r a b =>
      if n ≤ r.length then (some (.val (r.drop n) true b), .bytes (r.take n))
      else (some (.val r a true), .failed)
  | .size x => on s x fun r a b => (some (.val r a b), .num r.length)
  | .toBytes x => on s x fun r a b => (some (.val r a b), .bytes r)
  | .takeBytes x => on s x fun r a b => (some (.val r a b), .bytes r)
  | .getHex x => on s x fun r a b => (some (.val r a b), .text (hexText r))
  | .loadHex x txt => match s x, hexDecode txt with
    | some _, some bs => some (set s x (some (.val bs false false)), .none)
    | some (.val r a b), none => some (set s x (some (.val r a b)), .failed)
    | _, _ => none
  | .hash x => on s x fun r a b => (some (.val r a b), .bytes (g.H r))

/-- The variable has a value and no block read of it has failed. -/
def fine (s : Env) (x : Nat) : Bool :=
  match s x with
  | some (.val _ _ b) => !b
  | _ => false

/-- Nothing has been read from the variable. -/
def fresh (s : Env) (x : Nat) : Bool :=
  match s x with
  | some (.val _ a _) => !a
  | _ => false

/-- The statements for which the library keeps its word: a stream whose block read has failed is
only overwritten, cleared or destroyed; blocks and integers are below 2^62 bytes; a stream is not
appended to itself; only a stream from which nothing has been read is converted as an rvalue; only
hexadecimal text is loaded. -/
def careful (s : Env) : Op → Bool
  | .new _ | .bytes _ _ | .clear _ | .destroy _ => true
  | .copy _ y | .move _ y => fine s y
  | .assign _ y | .moveAssign _ y => fine s y
  | .swap _ _ => true
  | .putInt x _ _ | .put x _ | .size x | .toBytes x | .getHex x | .hash x => fine s x
  | .putFrom x y n _ => fine s x && fine s y && (x != y || n == 0)
  | .getInt x w => fine s x && decide (w < 2 ^ 62)
  | .getBlock x n => fine s x && decide (n < 2 ^ 62)
  | .takeBytes x => fine s x && fresh s x
  | .loadHex _ txt => (hexDecode txt).isSome

/-- Is this list of outputs, followed by what is still to come, right for the program?  `held` tells
which statements are under consideration. -/
def follow (g : Cfg) (held : Env → Op → Bool) : Env → List Op → Option (List Out)
  | _, [] => some []
  | s, op :: ops =>
    if held s op then
      match step g s op with
      | some (s', o) => (follow g held s' ops).map (o :: ·)
      | none => none
    else none

end Salticidae.Spec.StreamVar
