import Mathlib.Data.Int.Log
import Mathlib.Data.Rat.Floor
/-
Arithmetic of `float` and `double` (IEEE 754, round to nearest, ties to even), for the functions of util.cpp that compute with them.  `fl 24` is float, `fl 53` double: the result of every
operation is the exact result, rounded.

Simplified: exponents are unbounded (no overflow, no subnormal numbers), and there are neither infinities nor NaN: the times of the program are far from both ends.
-/
namespace Salticidae
namespace Ieee

/-- The nearest integer; of two equally near the even one. -/
def rne (x : Rat) : Int :=
  let f := x.floor
  if x - f < 1 / 2 then f else if 1 / 2 < x - f then f + 1 else if f % 2 = 0 then f else f + 1

/-- The distance between the numbers with p binary digits in the binade of x (`Int.log 2 x` is the largest k with 2^k ≤ x). -/
def ulp (p : Nat) (x : Rat) : Rat := (2 : Rat) ^ (Int.log 2 x - (p : Int) + 1)

/-- x rounded to p binary digits. -/
def fl (p : Nat) (x : Rat) : Rat :=
  if 0 < x then rne (x / ulp p x) * ulp p x
  else if x < 0 then -(rne (-x / ulp p (-x)) * ulp p (-x))
  else 0

/-- sec2tv, util.cpp:104-107, in the arithmetic of double: `tv.tv_sec` is converted to double, the difference and the product are rounded. -/
def sec2tv (t : Rat) : Int × Int := (t.floor, (fl 53 (fl 53 (t - fl 53 t.floor) * 1000000)).floor)

end Ieee
end Salticidae
