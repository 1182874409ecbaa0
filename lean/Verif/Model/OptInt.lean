import Verif.Model.NetAddr
import Verif.Model.Config
/-
Model of OptValInt::set_val, include/salticidae/util.h:317-324, with std::stoi: strtol in base 10 and the range of int (32 bits).
-/
namespace Salticidae
namespace OptInt
open Util (Str)
open Conf (Err)

/-- strtol in base 10 without its range (C11 7.22.1.4): white space, a sign, digits; the number, and how many characters it took.  `none`: no digit. -/
def strtol (s : Str) : Option (Int × Nat) :=
  let u := (cStr s).dropWhile DataStream.isCSpace
  let t := stripSign u
  let ds := t.2.takeWhile isDigit
  if ds = [] then none
  else some (if t.1 then - (decValue ds : Int) else decValue ds, (cStr s).length - t.2.length + ds.length)

/-- What std::stoi does. -/
inductive Stoi where
  | invalid                     -- std::invalid_argument
  | range                       -- std::out_of_range
  | ok (v : Int) (idx : Nat)
  deriving DecidableEq, Repr

def stoi (s : Str) : Stoi :=
  match strtol s with
  | none => .invalid
  | some (v, idx) => if v < - 2 ^ 31 ∨ v ≥ 2 ^ 31 then .range else .ok v idx

/-- OptValInt::set_val, util.h:317-324: the new value.  `idx` is not looked at; only invalid_argument is caught. -/
def setVal (s : Str) : Except Err Int :=
  match stoi s with
  | .invalid => .error .optvalInvalid
  | .range => .error .outOfRange
  | .ok v _ => .ok v

end OptInt
end Salticidae
