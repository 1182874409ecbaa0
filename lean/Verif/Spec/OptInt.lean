import Verif.Spec.NetAddr
/-!
Specification for C133: numerals.
-/
namespace Salticidae
namespace Spec.OptInt

/-- The values of an int. -/
def InRange (n : Int) : Prop := - 2147483648 ≤ n ∧ n ≤ 2147483647

/-- An integer written in decimal: digits, with a minus sign before them if need be. -/
def Numeral (s : List Char) (n : Int) : Prop :=
  ∃ ds, ds ≠ [] ∧ (∀ c ∈ ds, c ∈ digits) ∧ ((s = ds ∧ n = decimal ds) ∨ (s = '-' :: ds ∧ n = - (decimal ds : Int)))

/-- A text that has one at its beginning: after white space, perhaps with a plus sign, and with anything after it that is not a digit. -/
def Begins (s : List Char) (n : Int) : Prop :=
  ∃ ws sign ds rest, s = ws ++ sign ++ ds ++ rest ∧ (∀ c ∈ ws, c ∈ spaces) ∧ ds ≠ [] ∧ (∀ c ∈ ds, c ∈ digits) ∧ (∀ c, rest.head? = some c → c ∉ digits) ∧
    ((sign = [] ∧ n = decimal ds) ∨ (sign = ['+'] ∧ n = decimal ds) ∨ (sign = ['-'] ∧ n = - (decimal ds : Int)))

/-- How a program prints an int. -/
def text (n : Int) : List Char := if n < 0 then '-' :: Nat.toDigits 10 n.natAbs else Nat.toDigits 10 n.natAbs

end Spec.OptInt
end Salticidae
