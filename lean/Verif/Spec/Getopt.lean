import Verif.Model.Getopt
import Verif.Spec.Config
/-!
Specification for C131: what one writes on a command line, and what it means.
-/
namespace Salticidae
namespace Spec.Getopt
open Util (Str)
open Salticidae.Conf (Opt Arg)

/-- Things on a command line. -/
inductive Item where
  | longSet (i : Nat) (v : Str) (eq : Bool)        -- --name=v, or --name v
  | longFlag (i : Nat)                             -- --name
  | shortSet (c : Char) (v : Str) (joined : Bool)  -- -cv, or -c v
  | shortFlags (cs : List Char)                    -- -abc
  | plain (s : Str)                                -- something that is no option
  deriving DecidableEq, Repr

variable {D : Type}

def nameOf (decls : List (Opt D)) (i : Nat) : Str := (decls[i]?.map (·.name)).getD []

/-- How it is written. -/
def write (decls : List (Opt D)) : Item → List Str
  | .longSet i v true => ['-' :: '-' :: (nameOf decls i ++ '=' :: v)]
  | .longSet i v false => ['-' :: '-' :: nameOf decls i, v]
  | .longFlag i => ['-' :: '-' :: nameOf decls i]
  | .shortSet c v true => ['-' :: c :: v]
  | .shortSet c v false => [['-', c], v]
  | .shortFlags cs => ['-' :: cs]
  | .plain s => [s]

/-- What it sets. -/
def sets : Item → List Arg
  | .longSet i v _ => [.long i v]
  | .longFlag i => [.long i []]
  | .shortSet c v _ => [.short c v]
  | .shortFlags cs => cs.map (fun c => .short c [])
  | .plain _ => []

/-- What it leaves. -/
def leaves : Item → List Str
  | .plain s => [s]
  | _ => []

/-- The options exist, and take a value or not. -/
def Fits (decls : List (Opt D)) : Item → Prop
  | .longSet i _ _ => ∃ o, decls[i]? = some o ∧ o.action ≠ .switchOn
  | .longFlag i => ∃ o, decls[i]? = some o ∧ o.action = .switchOn
  | .shortSet c v joined => (∃ o ∈ decls, o.short = some c ∧ o.action ≠ .switchOn) ∧ (joined = true → v ≠ [])
  | .shortFlags cs => cs ≠ [] ∧ ∀ c ∈ cs, ∃ o ∈ decls, o.short = some c ∧ o.action = .switchOn
  | .plain s => s = ['-'] ∨ s.head? ≠ some '-'

/-- Names that can be written on a command line. -/
def Writable (decls : List (Opt D)) : Prop :=
  ∀ o ∈ decls, o.name ≠ [] ∧ '=' ∉ o.name ∧ ∀ c, o.short = some c → c ∉ [':', ';', '?', '+', '-']

/-- A command line: the program, things, and, after "--", arguments that are not looked at. -/
def line (decls : List (Opt D)) (prog : Str) (items : List Item) (tail : Option (List Str)) : List Str :=
  prog :: (items.flatMap (write decls) ++ match tail with
    | some t => ['-', '-'] :: t
    | none => [])

end Spec.Getopt
end Salticidae
