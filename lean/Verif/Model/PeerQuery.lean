import Verif.Model.PeerNet
import Verif.Model.Stream
/-
Model of the answers of has_peer and get_npending, include/salticidae/network.h:1294-1309, as the caller gets them.

The closure stores a `size_t` with `set_result` (event.h:752-756: `new size_t(...)`); the function reads the object as a `bool`: one
byte, the one at the lowest address.  A byte other than 0 and 1 is not a value of that type.
-/
namespace Salticidae
namespace PeerNet

/-- `*static_cast<bool *>(p)`, network.h:1296 and 1305, where p points to a `size_t` of 8 bytes. -/
def sizeAsBool (e : Endian) (n : Nat) : BoolRead :=
  match memEnc e (w := 8) (BitVec.ofNat 64 n) with
  | [] => .ub
  | b :: _ => if b.toNat ≤ 1 then .ok b.toNat else .ub

/-- `known_peers.count(pid)`, network.h:1299. -/
def count (s : St) (pid : Nat) : Nat := if (find s pid).isSome then 1 else 0

/-- has_peer, network.h:1294-1301. -/
def hasPeerAnswer (e : Endian) (s : St) (pid : Nat) : BoolRead := sizeAsBool e (count s pid)

/-- get_npending, network.h:1303-1309. -/
def npendingAnswer (e : Endian) (s : St) : BoolRead := sizeAsBool e s.pending.length

end PeerNet
end Salticidae
