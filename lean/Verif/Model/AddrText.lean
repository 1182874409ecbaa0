import Verif.Model.NetAddr
/-
Model of the text of an address, NetAddr::operator std::string, include/salticidae/netaddr.h:93-100, with inet_ntoa and std::to_string as documented.
Simplified: inet_ntoa returns a static buffer that is copied at once into a std::string; other threads calling inet_ntoa at that moment are not modelled (glibc's buffer is per thread).
-/
namespace Salticidae
namespace AddrText

/-- `std::to_string` of an unsigned number, netaddr.h:98. -/
def toString (n : Nat) : List Char := Nat.toDigits 10 n

/-- `inet_ntoa`, netaddr.h:97: the bytes of `s_addr` in the order they have in memory, in decimal, with dots between them. -/
def ntoa : List Byte → List Char
  | [] => []
  | [b] => toString b.toNat
  | b :: bs => toString b.toNat ++ '.' :: ntoa bs

/-- The part of the text between `<NetAddr ` and `>`, netaddr.h:97-98; `ntohs` is `htons`. -/
def inner (e : Endian) (a : NetAddr) : List Char :=
  ntoa (memEnc e a.ip) ++ ':' :: toString (htons e a.port).toNat

/-- `NetAddr::operator std::string`, netaddr.h:93-100. -/
def text (e : Endian) (a : NetAddr) : List Char :=
  "<NetAddr ".toList ++ inner e a ++ ">".toList

end AddrText
end Salticidae
