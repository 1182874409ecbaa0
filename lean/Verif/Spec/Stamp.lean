import Verif.Spec.NetAddr
/-!
Specification for C134: the moment that a date and a time of day stand for.
-/
namespace Salticidae
namespace Spec.Stamp

/-- Days from the beginning of 1970 to that of year y, in the Gregorian calendar: one more day for every fourth year, but not for centuries, except every fourth of them. -/
def daysToYear (y : Nat) : Int := 365 * (y - 1970 : Int) + ((y - 1) / 4 - (y - 1) / 100 + (y - 1) / 400 : Int) - 477

/-- Days of the year before the month. -/
def daysToMonth (y m : Nat) : Nat :=
  [0, 0, 31, 59, 90, 120, 151, 181, 212, 243, 273, 304, 334].getD m 0 + (if 2 < m ∧ (y % 4 = 0 ∧ (y % 100 = 0 → y % 400 = 0)) then 1 else 0)

/-- The microsecond, from the beginning of 1970, that a text YYYY-MM-DD hh:mm:ss.uuuuuu stands for: the year is what comes before the first dash. -/
def moment (s : List Char) : Int :=
  let ys := s.takeWhile (fun c => c ≠ '-')
  let r := s.drop ys.length
  let f := fun i n => decimal ((r.drop i).take n)
  let y := decimal ys
  ((((daysToYear y + daysToMonth y (f 1 2) + f 4 2 - 1) * 24 + f 7 2) * 60 + f 10 2) * 60 + f 13 2) * 1000000 + f 16 6

end Spec.Stamp
end Salticidae
