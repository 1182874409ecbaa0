import Verif.Model.SelfSigned
/-!
Specification for C129.
-/
namespace Salticidae
namespace Spec.SelfSigned
open Salticidae.SelfSigned (PKey Field Cert Name lib)

/-- The name of a certificate with this country and this common name. -/
def named (country cn : List Nat) : Name := [(.country, country), (.organization, lib), (.commonName, cn)]

/-- At time t the certificate is in force. -/
def InForce (c : Cert) (t : Nat) : Prop := c.notBefore ≤ t ∧ t < c.notAfter

/-- The certificate is for the key k and signed with it, has the names that were given, and once it is there, at time `done`, is in force for a while. -/
def Good (k : PKey) (country cn : List Nat) (done : Nat) (c : Cert) : Prop :=
  c.key = k.pub ∧ c.signer = some k.pub ∧ c.subject = named country cn ∧ c.issuer = c.subject ∧ ∃ d, 0 < d ∧ ∀ t, done ≤ t → t < done + d → InForce c t

/-- A country code, and a name that has room in a certificate. -/
def Country (s : List Nat) : Prop := s.length = 2 ∧ ∀ c ∈ s, (65 ≤ c ∧ c ≤ 90) ∨ (97 ≤ c ∧ c ≤ 122)

def Room (s : List Nat) : Prop := s ≠ [] ∧ s.length ≤ 64

end Spec.SelfSigned
end Salticidae
