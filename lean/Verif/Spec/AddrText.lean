import Verif.Spec.NetAddr
/-!
Specification for C135: how an IPv4 address and a port are written.
-/
namespace Salticidae.Spec.AddrText

/-- `s` is the usual way to write the number `n`: digits, without leading zeros. -/
def Number (s : List Char) (n : Nat) : Prop :=
  s ≠ [] ∧ (∀ c ∈ s, c ∈ Spec.digits) ∧ Spec.decimal s = n ∧ (s.head? = some '0' → s = ['0'])

/-- `s` is `a.b.c.d` for the four bytes. -/
def Quad (s : List Char) (quad : List (BitVec 8)) : Prop :=
  ∃ a b c d sa sb sc sd, quad = [a, b, c, d] ∧
    s = sa ++ ".".toList ++ sb ++ ".".toList ++ sc ++ ".".toList ++ sd ∧
    Number sa a.toNat ∧ Number sb b.toNat ∧ Number sc c.toNat ∧ Number sd d.toNat

/-- `s` is `a.b.c.d:port`. -/
def HostPort (s : List Char) (quad : List (BitVec 8)) (port : Nat) : Prop :=
  ∃ h p, s = h ++ ":".toList ++ p ∧ Quad h quad ∧ Number p port

/-- A resolver that takes an address in numbers for what it is, as gethostbyname is documented to do. -/
def Numeric (resolve : List Char → Option (List (BitVec 8))) : Prop :=
  ∀ h quad, Quad h quad → resolve h = some quad

end Salticidae.Spec.AddrText
