import Verif.Model.Digest
/-!
What a digest object computes.
-/
namespace Salticidae
namespace Spec.Digest
open Salticidae.Digest

/-- Every digest is the hash of the bytes given since the object was made or last reset: `acc`. -/
def results (H : List Byte → List Byte) : List Byte → List Op → List (List Byte)
  | _, [] => []
  | _, .reset :: os => results H [] os
  | acc, .update bs :: os => results H (acc ++ bs) os
  | acc, .digest :: os => H acc :: results H acc os
  | acc, .digestInto _ :: os => H acc :: results H acc os

/-- After a digest the object is reset before it is used again. -/
def Proper : List Op → Prop
  | .digest :: o :: os => o = .reset ∧ Proper (o :: os)
  | .digestInto _ :: o :: os => o = .reset ∧ Proper (o :: os)
  | _ :: os => Proper os
  | [] => True

/-- The bytes that stand for an address: four of the host, two of the port, most significant first. -/
def addrBytes (quad : List Byte) (port : Nat) : List Byte := quad ++ [BitVec.ofNat 8 (port / 256), BitVec.ofNat 8 port]

/-- `x` and `y` are different and have the same hash. -/
def Collide (H : List Byte → List Byte) (x y : List Byte) : Prop := x ≠ y ∧ H x = H y

end Spec.Digest
end Salticidae
