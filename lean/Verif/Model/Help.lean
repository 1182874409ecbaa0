import Verif.Model.Util
/-
Model of Config::print_help, src/util.cpp:338-352: the text that it writes.
Simplified: lengths fit an int, and writing does not fail.
-/
namespace Salticidae
namespace Help
open Util (Str)

/-- What is printed of an option (util.h:386-405); `short = none` is -1. -/
structure Entry where
  name : Str
  short : Option Char
  doc : Str
  deriving DecidableEq, Repr

/-- A std::string as a C string (`c_str()` printed with %s). -/
def cstr (s : Str) : Str := s.takeWhile (fun c => c ≠ '\x00')

/-- util.cpp:339-341. -/
def width (es : List Entry) : Nat := es.foldl (fun w e => max w e.name.length) 0

/-- `%*c` of a space. -/
def spaces (n : Nat) : Str := List.replicate (n - 1) ' ' ++ [' ']

/-- util.cpp:346-349. -/
def Entry.mark (e : Entry) : Str :=
  match e.short with
  | some c => ['-', c, '\t']
  | none => ['\t', '\t']

/-- util.cpp:344-350. -/
def entry (w : Nat) (e : Entry) : Str :=
  ' ' :: ' ' :: '-' :: '-' :: (cstr e.name ++ spaces (w - e.name.length + 4) ++ e.mark ++ cstr e.doc ++ ['\n'])

/-- print_help, util.cpp:338-352. -/
def help (es : List Entry) : Str := es.flatMap (entry (width es))

end Help
end Salticidae
