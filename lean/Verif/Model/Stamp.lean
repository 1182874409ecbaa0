import Verif.Model.Logger
/-
Model of get_current_datetime, src/util.cpp:142-151, with localtime, strftime("%Y-%m-%d %H:%M:%S.%%06u") and snprintf as documented: the text of a moment of the clock.  (What happens when several
threads use localtime's buffer at once is in Model/Logger.)
Simplified: times after 1970, also local ones; no leap seconds; the year fits an int, so that the buffers of 64 bytes are large enough; tv_usec is below 10^6.
-/
namespace Salticidae
namespace Stamp
open Util (Str)

/-- Gregorian leap years, as localtime counts them. -/
def leap (y : Nat) : Bool := y % 4 == 0 && (y % 100 != 0 || y % 400 == 0)

def yearLen (y : Nat) : Nat := if leap y then 366 else 365

def monthLens (y : Nat) : List Nat := [31, if leap y then 29 else 28, 31, 30, 31, 30, 31, 31, 30, 31, 30, 31]

/-- The year, and the day in it, of day d counted from the beginning of year y. -/
def yearOf : Nat → Nat → Nat → Nat × Nat
  | 0, y, d => (y, d)
  | f + 1, y, d => if d < yearLen y then (y, d) else yearOf f (y + 1) (d - yearLen y)

/-- The month, and the day in it (from 0). -/
def monthOf : List Nat → Nat → Nat → Nat × Nat
  | [], m, d => (m, d)
  | l :: ls, m, d => if d < l then (m, d) else monthOf ls (m + 1) (d - l)

/-- localtime, util.cpp:147: struct tm.  `off t` is what the local clock is ahead of UTC at the moment t. -/
structure Tm where
  year : Nat
  month : Nat
  day : Nat
  hour : Nat
  min : Nat
  sec : Nat
  deriving DecidableEq, Repr

def localtime (off : Nat → Int) (t : Nat) : Tm :=
  let l := (t + off t).toNat
  let d := l / 86400
  let y := yearOf (d + 1) 1970 d
  let m := monthOf (monthLens y.1) 1 y.2
  ⟨y.1, m.1, m.2 + 1, l % 86400 / 3600, l % 3600 / 60, l % 60⟩

/-- A number below 100 with two digits. -/
def pad2 (n : Nat) : Str := [10, 1].map fun d => Char.ofNat ('0'.toNat + n / d % 10)

/-- strftime, util.cpp:148. -/
def strftime (tm : Tm) : Str :=
  Nat.toDigits 10 tm.year ++ '-' :: (pad2 tm.month ++ '-' :: (pad2 tm.day ++ ' ' :: (pad2 tm.hour ++ ':' :: (pad2 tm.min ++ ':' :: pad2 tm.sec))))

/-- get_current_datetime, util.cpp:142-151, at t seconds and us microseconds. -/
def stamp (off : Nat → Int) (t us : Nat) : Str := strftime (localtime off t) ++ '.' :: Logger.pad6 us

end Stamp
end Salticidae
