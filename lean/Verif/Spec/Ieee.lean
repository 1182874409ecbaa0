import Mathlib.Data.Rat.Floor
/-!
Specification of floating-point rounding.
-/
namespace Salticidae
namespace Spec.Ieee

/-- A number with p binary digits. -/
def Rep (p : Nat) (x : Rat) : Prop := ∃ (m k : Int), |m| < 2 ^ p ∧ x = m * (2 : Rat) ^ k

/-- y is a number with p binary digits, and none is nearer to x. -/
def Nearest (p : Nat) (x y : Rat) : Prop := Rep p y ∧ ∀ z, Rep p z → |x - y| ≤ |x - z|

end Spec.Ieee
end Salticidae
