/-
Model of src/util.cpp: split, trim, trim_all, vstringprintf, gen_rand_timeout, sec2tv.
A std::string is a list of characters.  `std::string` member functions are modelled from the C++
standard ([string.find] and following).
-/
namespace Salticidae
namespace Util

abbrev Str := List Char

/-- `std::string::find(d, pos)` used at util.cpp:358: the least position `≥ pos` at which `d` occurs,
`none` for npos. -/
def find (s d : Str) (pos : Nat) : Option Nat :=
  (List.range' pos (s.length + 1 - pos)).find? (fun p => p + d.length ≤ s.length && (s.drop p).take d.length == d)

/-- `std::string::substr(pos, n)` for `pos ≤ size()` (the only use here). -/
def substr (s : Str) (pos n : Nat) : Str := (s.drop pos).take n

/-- The loop of `split`, util.cpp:357-365, one iteration per unit of fuel; `none` means that the
fuel ran out, so a call that returns is one that gives `some` for some fuel. -/
def splitLoop (s d : Str) : Nat → Nat → List Str → Option (List Str)
  | 0, _, _ => none
  | fuel + 1, lastpos, res =>
    match find s d lastpos with
    | none => some (res ++ [substr s lastpos (s.length - lastpos)])
    | some pos => splitLoop s d fuel (pos + d.length) (res ++ [substr s lastpos (pos - lastpos)])

/-- `split`, util.cpp:354-367. -/
def split (s d : Str) (fuel : Nat) : Option (List Str) := splitLoop s d fuel 0 []

/-- `find_first_not_of`, used at util.cpp:370. -/
def findFirstNotOf (s space : Str) : Option Nat := s.findIdx? (fun c => !space.contains c)

/-- `find_last_not_of`, used at util.cpp:373. -/
def findLastNotOf (s space : Str) : Option Nat :=
  (s.reverse.findIdx? (fun c => !space.contains c)).map (fun i => s.length - 1 - i)

/-- `trim`, util.cpp:369-375.  The dereference of `new_end` when npos cannot happen; the model returns
the string unchanged there and the theorem shows it is never needed. -/
def trim (s space : Str) : Str :=
  match findFirstNotOf s space with
  | none => []
  | some b =>
    match findLastNotOf s space with
    | none => s
    | some e => substr s b (e - b + 1)

/-- The default `space` argument, util.h:75. -/
def blanks : Str := ['\t', '\r', '\n', ' ']

/-- `trim_all`, util.cpp:377-382. -/
def trimAll (ss : List Str) : List Str := ss.map (fun s => trim s blanks)

/-- `vsnprintf(buf, n, ...)` when the complete formatted text is `text` (C11 7.21.6.12): at most
`n - 1` characters and a terminating NUL are stored over the old contents of `buf`.  The return
value, not shown here, is `text.length`. -/
def vsnprintf (buf : Str) (n : Nat) (text : Str) : Str :=
  if n = 0 then buf
  else
    let w := text.take (n - 1) ++ ['\x00']
    w ++ buf.drop w.length

/-- `std::string::resize`. -/
def resize (s : Str) (n : Nat) : Str := s.take n ++ List.replicate (n - s.length) '\x00'

/-- `vstringprintf`, util.cpp:113-132, as a function of the formatted text; encoding errors
(negative return) are not modelled; `guess` is 1024, util.cpp:114. -/
def vstringprintf (guess : Nat) (text : Str) : Str :=
  let buff := vsnprintf (List.replicate guess '\x00') guess text
  let nwrote := text.length
  let buff := resize buff nwrote
  if guess < nwrote then vsnprintf buff nwrote text else buff

/-- `gen_rand_timeout`, util.cpp:109-111, with `r = rand()`, `m = RAND_MAX` and floating-point
rounding after every operation given by `rnd`. -/
def genRandTimeout (rnd : Rat → Rat) (base alpha : Rat) (r m : Nat) : Rat :=
  rnd (base + rnd (rnd (rnd ((r : Rat) / (m : Rat)) * alpha) * base))

/-- `sec2tv`, util.cpp:104-107, for `t ≥ 0`, in exact arithmetic (`trunc` is the floor there). -/
def sec2tv (t : Rat) : Int × Int := (t.floor, ((t - t.floor) * 1000000).floor)

end Util
end Salticidae
