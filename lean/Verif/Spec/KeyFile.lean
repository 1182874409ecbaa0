import Verif.Model.KeyFile
/-!
Specification for C126.
-/
namespace Salticidae
namespace Spec.KeyFile
open Salticidae.KeyFile (Bytes Codec Parsed)

/-- What OpenSSL writes it can read. -/
def Lawful {K : Type} (c : Codec K) : Prop := ∀ k, c.parse (c.text k) = .plain k

/-- The contents of a file are the object k, not encrypted, or encrypted with the password that is given. -/
def Opens {K : Type} (c : Codec K) (bs : Bytes) (pw : Option Bytes) (k : K) : Prop :=
  c.parse bs = .plain k ∨ ∃ q, c.parse bs = .locked q (some k) ∧ pw = some q

/-- A password that the interface of OpenSSL can take: it fits its buffer, and has no zero byte. -/
def Plain (w : Bytes) : Prop := w.length < 1024 ∧ 0 ∉ w

end Spec.KeyFile
end Salticidae
