import Verif.Model.Stream
/-
Model of programs with several variables of type DataStream: construction, copy, move, assignment,
swap and all reading and writing calls, include/salticidae/stream.h:38-199 and 434-439.

Simplifications: those of Verif.Model.Stream; moving from a `std::vector` leaves it empty (what the
standard guarantees for the move constructor); SHA256 is a parameter `H` of the machine; a call that
would need a vector of 2^63 bytes or more does not happen (`never`).
-/
namespace Salticidae.StreamVar

/-- The machine: byte order, hash function, reading of `0x` by sscanf. -/
structure Cfg where
  e : Endian
  H : List Byte → List Byte
  lax : Bool

/-- One statement of a program over stream variables (numbered). -/
inductive Op where
  /-- `DataStream x;`, stream.h:43 -/
  | new (x : Nat)
  /-- `DataStream x(bytes);`, stream.h:44-49 -/
  | bytes (x : Nat) (bs : List Byte)
  /-- `DataStream x(y);`, stream.h:55-57 -/
  | copy (x y : Nat)
  /-- `DataStream x(std::move(y));`, stream.h:51-53 -/
  | move (x y : Nat)
  /-- `x = y;`, stream.h:64-71 -/
  | assign (x y : Nat)
  /-- `x = std::move(y);`, stream.h:73-80 -/
  | moveAssign (x y : Nat)
  /-- `x.swap(y);`, stream.h:59-62 -/
  | swap (x y : Nat)
  /-- end of the life of `x` -/
  | destroy (x : Nat)
  /-- `x.clear();`, stream.h:84-87 -/
  | clear (x : Nat)
  /-- `x << v;` for an integer of `w` bytes, stream.h:93-99 -/
  | putInt (x w : Nat) (v : BitVec (8 * w))
  /-- `x << bytes;`, stream.h:101-108 -/
  | put (x : Nat) (bs : List Byte)
  /-- `x.put_data(y.data(), y.data() + n);`, stream.h:82, 110-114.  `grown`: extending the buffer of
  `x` moves it to new memory, which is up to `std::vector`. -/
  | putFrom (x y n : Nat) (grown : Bool)
  /-- `x >> v;` for an integer of `w` bytes, stream.h:138-148 -/
  | getInt (x w : Nat)
  /-- `p = x.get_data_inplace(n); bytearray_t(p, p + n)`, stream.h:116-124 -/
  | getBlock (x n : Nat)
  /-- `x.size()`, stream.h:89-91 -/
  | size (x : Nat)
  /-- `bytearray_t(x)`, `std::string(x)`, stream.h:186-188, 194-196 -/
  | toBytes (x : Nat)
  /-- `bytearray_t(std::move(x))`, stream.h:190-192 -/
  | takeBytes (x : Nat)
  /-- `x.get_hex()`, stream.h:157-166 -/
  | getHex (x : Nat)
  /-- `x.load_hex(text);`, stream.h:168-184 -/
  | loadHex (x : Nat) (txt : List Char)
  /-- `x.get_hash()`, stream.h:198, 434-438 -/
  | hash (x : Nat)

/-- What the program sees of a statement. -/
inductive Out where
  | none
  | num (n : Nat)
  | bytes (bs : List Byte)
  | text (cs : List Char)
  | failed
  deriving DecidableEq, Repr

/-- The variables that exist, with their contents. -/
abbrev St := Nat → Option DataStream

/-- Outcome of a statement. -/
inductive R where
  | ok (s : St) (o : Out)
  | ub
  | never

/-- Set a variable. -/
def set (s : St) (x : Nat) (d : Option DataStream) : St := fun z => if z = x then d else s z

/-- Store into `x` unless the vector would be too long to exist. -/
def store (s : St) (x : Nat) (d : DataStream) (o : Out) : R :=
  if d.buffer.length < 2 ^ 63 then .ok (set s x (some d)) o else .never

/-- What moving a stream leaves behind, stream.h:51-53: the buffer is emptied, the offset stays. -/
def husk (d : DataStream) : DataStream := ⟨[], d.offset⟩

/-- The end of a call on `x` that returns or throws. -/
def finish {α : Type} (s : St) (x : Nat) (f : α → Out) : Res DataStream α → R
  | .ok d a => store s x d (f a)
  | .throw d => store s x d .failed
  | .ub => .ub

/-- `get_hash`, stream.h:434-438: hashes `size()` bytes from `buffer.begin() + offset`; anything
outside the buffer is undefined behaviour. -/
def getHash (g : Cfg) (d : DataStream) : Res DataStream (List Byte) :=
  if d.offset + d.size ≤ d.buffer.length then .ok d (g.H ((d.buffer.drop d.offset).take d.size)) else .ub

/-- One statement.  Using a variable that does not exist, or constructing one that does, is counted
as undefined behaviour. -/
def step (g : Cfg) (s : St) : Op → R
  -- stream.h:43
  | .new x => match s x with
    | none => .ok (set s x (some .empty)) .none
    | some _ => .ub
  -- stream.h:44-49
  | .bytes x bs => match s x with
    | none => store s x (.ofBytes bs) .none
    | some _ => .ub
  -- stream.h:55-57
  | .copy x y => match s x, s y with
    | none, some d => .ok (set s x (some d)) .none
    | _, _ => .ub
  -- stream.h:51-53
  | .move x y => match s x, s y with
    | none, some d => .ok (set (set s y (some (husk d))) x (some d)) .none
    | _, _ => .ub
  -- stream.h:64-71
  | .assign x y => match s x, s y with
    | some _, some d => if x = y then .ok s .none else .ok (set s x (some d)) .none
    | _, _ => .ub
  -- stream.h:73-80: the old content of `x` goes to `tmp` and dies
  | .moveAssign x y => match s x, s y with
    | some _, some d => if x = y then .ok s .none else .ok (set (set s y (some (husk d))) x (some d)) .none
    | _, _ => .ub
  -- stream.h:59-62
  | .swap x y => match s x, s y with
    | some a, some b => .ok (set (set s x (some b)) y (some a)) .none
    | _, _ => .ub
  | .destroy x => match s x with
    | some _ => .ok (set s x none) .none
    | none => .ub
  -- stream.h:84-87
  | .clear x => match s x with
    | some d => .ok (set s x (some d.clear)) .none
    | none => .ub
  -- stream.h:93-99
  | .putInt x w v => match s x with
    | some d => store s x (d.putInt (w := w) g.e v) .none
    | none => .ub
  -- stream.h:101-108
  | .put x bs => match s x with
    | some d => store s x (d.putData bs) .none
    | none => .ub
  -- stream.h:82, 110-114: `begin` is read after the buffer has been extended
  | .putFrom x y n grown => match s x, s y with
    | some a, some b =>
      if b.offset + n ≤ b.buffer.length then
        if x = y ∧ 0 < n ∧ grown = true then .ub
        else store s x (a.putData ((b.buffer.drop b.offset).take n)) .none
      else .ub
    | _, _ => .ub
  -- stream.h:138-148
  | .getInt x w => match s x with
    | some d => finish s x (fun v => .num v.toNat) (d.getInt g.e w)
    | none => .ub
  -- stream.h:116-124
  | .getBlock x n => match s x with
    | some d => finish s x .bytes (d.getBlock n)
    | none => .ub
  -- stream.h:89-91
  | .size x => match s x with
    | some d => .ok s (.num d.size)
    | none => .ub
  -- stream.h:186-188, 194-196
  | .toBytes x => match s x with
    | some d => finish s x .bytes d.toBytesLvalue
    | none => .ub
  -- stream.h:190-192
  | .takeBytes x => match s x with
    | some d => finish s x .bytes d.toBytesRvalue
    | none => .ub
  -- stream.h:157-166
  | .getHex x => match s x with
    | some d => finish s x .text d.getHex
    | none => .ub
  -- stream.h:168-184
  | .loadHex x txt => match s x with
    | some d => finish s x (fun _ => .none) (d.loadHex g.lax txt)
    | none => .ub
  -- stream.h:434-438
  | .hash x => match s x with
    | some d => finish s x .bytes (getHash g d)
    | none => .ub

/-- How a program went: the outputs, and whether it ran to its end. -/
inductive Run where
  | done (os : List Out)
  | ub (os : List Out)
  | never (os : List Out)
  deriving DecidableEq, Repr

/-- The outputs seen before everything that follows. -/
def Run.after (o : Out) : Run → Run
  | .done os => .done (o :: os)
  | .ub os => .ub (o :: os)
  | .never os => .never (o :: os)

/-- A program, statement by statement. -/
def run (g : Cfg) : St → List Op → Run
  | _, [] => .done []
  | s, op :: ops => match step g s op with
    | .ok s' o => (run g s' ops).after o
    | .ub => .ub []
    | .never => .never []

/-! ### Serializable, stream.h:201-230 and 441-459 -/

/-- `Serializable::to_bytes`, stream.h:223-227; `ser` is the `serialize` of the class: what it does
to a stream. -/
def toBytes (ser : DataStream → DataStream) : Res DataStream (List Byte) :=
  (ser .empty).toBytesRvalue

/-- `Serializable::from_bytes`, both overloads, stream.h:207-215; `unser` is the `unserialize` of
the class. -/
def fromBytes {α : Type} (unser : DataStream → Res DataStream α) (bs : List Byte) : Res DataStream α :=
  unser (.ofBytes bs)

/-- `get_hex(x)` and `Serializable::to_hex`, stream.h:446-451, 459. -/
def toHex (ser : DataStream → DataStream) : Res DataStream (List Char) :=
  (ser .empty).getHex

/-- `Serializable::from_hex`, stream.h:217-221. -/
def fromHex {α : Type} (lax : Bool) (unser : DataStream → Res DataStream α) (txt : List Char) : Res DataStream α :=
  match DataStream.empty.loadHex lax txt with
  | .ok s _ => unser s
  | .throw s => .throw s
  | .ub => .ub

/-- `get_hash(x)`, stream.h:440-444. -/
def hashOf (g : Cfg) (ser : DataStream → DataStream) : Res DataStream (List Byte) :=
  getHash g (ser .empty)

/-- The free function `from_hex`, stream.h:453-457. -/
def bytesOfHex (lax : Bool) (txt : List Char) : Res DataStream (List Byte) :=
  match DataStream.empty.loadHex lax txt with
  | .ok s _ => s.toBytesRvalue
  | .throw s => .throw s
  | .ub => .ub

end Salticidae.StreamVar
