import Verif.Model.Der
/-!
Specification for C130.
-/
namespace Salticidae
namespace Spec.Der
open Salticidae.Der (Bytes Codec)

/-- OpenSSL reads what it writes, whatever follows it; and it reads no more than there is. -/
structure Lawful {K : Type} (c : Codec K) : Prop where
  reads : ∀ k bs rest, c.i2d k = some bs → bs ≠ [] ∧ c.d2i (bs ++ rest) = some (k, bs.length)
  within : ∀ bs k n, c.d2i bs = some (k, n) → 0 < n ∧ n ≤ bs.length

/-- An object remembers the bytes from which it was read (this is so for certificates). -/
def Remembers {K : Type} (c : Codec K) : Prop := ∀ bs k n, c.d2i bs = some (k, n) → c.i2d k = some (bs.take n)

end Spec.Der
end Salticidae
