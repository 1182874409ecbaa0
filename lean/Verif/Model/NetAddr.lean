import Verif.Model.Stream
/-
Model of NetAddr, include/salticidae/netaddr.h:41-104, and of its hash, 108-122.
Simplification: gethostbyname is the parameter `resolve`, a function from the host text to the four
address bytes in network order (`h_addr_list[0]`), or nothing if it fails.
Text is a list of characters; `c_str()` hands over the part before the first NUL.
-/
namespace Salticidae

/-- `NetAddr`, netaddr.h:41-43: both fields hold numbers in network byte order. -/
structure NetAddr where
  ip : BitVec (8 * 4)
  port : BitVec (8 * 2)
  deriving DecidableEq, Repr

/-- `htons` / `ntohs`. -/
def htons (e : Endian) (p : BitVec (8 * 2)) : BitVec (8 * 2) :=
  match e with
  | .little => bswap p
  | .big => p

/-- The text a C function sees when given `s.c_str()`. -/
def cStr (s : List Char) : List Char := s.takeWhile (· ≠ '\x00')

/-- `isdigit`. -/
def isDigit (c : Char) : Bool := '0'.toNat ≤ c.toNat && c.toNat ≤ '9'.toNat

/-- Value of a decimal digit string. -/
def decValue (ds : List Char) : Nat := ds.foldl (fun n c => 10 * n + (c.toNat - '0'.toNat)) 0

/-- The optional sign of strtol: whether it was a minus, and the rest. -/
def stripSign : List Char → Bool × List Char
  | [] => (false, [])
  | c :: u => if c = '-' then (true, u) else if c = '+' then (false, u) else (false, c :: u)

/-- `std::stol(const char *)` with base 10 (C11 7.22.1.4 strtol; std::stol throws a logic_error, here
`none`, if there is no digit or the value does not fit in a 64-bit long). Leading white space and a
sign are accepted, and everything after the digits is ignored. -/
def stol (s : List Char) : Option Int :=
  let t := stripSign ((cStr s).dropWhile DataStream.isCSpace)
  let ds := t.2.takeWhile isDigit
  if ds = [] then none
  else
    let v : Int := if t.1 then - (decValue ds : Int) else decValue ds
    if v < - 2 ^ 63 ∨ v ≥ 2 ^ 63 then none else some v

namespace NetAddr

/-- `NetAddr()`, netaddr.h:45. -/
def null : NetAddr := ⟨0, 0⟩

/-- `set_by_ip_port`, netaddr.h:53-59; `none`: SalticidaeError. -/
def ofIpPort (e : Endian) (resolve : List Char → Option (List Byte)) (addr : List Char)
    (port : BitVec (8 * 2)) : Option NetAddr :=
  match resolve (cStr addr) with
  | none => none
  | some bs => some ⟨memDec e 4 (bs.take 4), htons e port⟩

/-- `NetAddr(const std::string &)`, netaddr.h:61-78: the text is cut at the first colon; `none`:
SalticidaeError. -/
def ofText (e : Endian) (resolve : List Char → Option (List Byte)) (s : List Char) : Option NetAddr :=
  if ':' ∉ s then none
  else
    let ipStr := s.takeWhile (· ≠ ':')
    let portStr := (s.dropWhile (· ≠ ':')).drop 1
    match stol portStr with
    | none => none
    | some port =>
      if port < 0 then none
      else if port > 0xffff then none
      else ofIpPort e resolve ipStr (BitVec.ofNat 16 port.toNat)

/-- `operator==`, netaddr.h:85-87. -/
def eq (a b : NetAddr) : Bool := a.ip == b.ip && a.port == b.port

/-- `operator!=`, netaddr.h:89-91. -/
def ne (a b : NetAddr) : Bool := a.ip != b.ip || a.port != b.port

/-- `is_null`, netaddr.h:102. -/
def isNull (a : NetAddr) : Bool := a.ip == 0 && a.port == 0

/-- `serialize`, netaddr.h:104. -/
def serialize (e : Endian) (a : NetAddr) (s : DataStream) : DataStream :=
  (s.putInt e a.ip).putInt e a.port

/-- `unserialize`, netaddr.h:106: the address object, the stream and whether it returned normally
(the ip has already been overwritten if reading the port throws). -/
def unserialize (e : Endian) (a : NetAddr) (s : DataStream) : NetAddr × DataStream × Bool :=
  match s.getInt e 4 with
  | .ok s' x => match s'.getInt e 2 with
    | .ok s'' y => (⟨x, y⟩, s'', true)
    | _ => (⟨x, a.port⟩, s', false)
  | _ => (a, s, false)

/-- `std::hash<NetAddr>`, netaddr.h:110-122. -/
def hash (a : NetAddr) : Nat := (a.ip ^^^ a.port.setWidth 32).toNat

end NetAddr
end Salticidae
