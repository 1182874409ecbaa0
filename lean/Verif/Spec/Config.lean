import Verif.Model.Config
/-
What a set of configuration files and a command line mean: the list of assignments they make, in
order, with named files spliced in where they are named.
Only the data types of Model.Config (options, values, command-line items) are used.
-/
namespace Salticidae
namespace Spec.Conf
open Salticidae.Conf

open Util (Str)

def blank (c : Char) : Bool := c = ' ' || c = '\t' || c = '\r' || c = '\n'

/-- Without surrounding blanks. -/
def strip (s : Str) : Str := ((s.dropWhile blank).reverse.dropWhile blank).reverse

/-- The lines of a text. -/
def lines (s : Str) : List Str :=
  if h : s = [] then []
  else s.takeWhile (· ≠ '\n') :: lines (s.drop ((s.takeWhile (· ≠ '\n')).length + 1))
termination_by s.length
decreasing_by
  have := List.length_pos_iff.2 h
  simp; omega

/-- `key = value`, at the first equals sign. -/
def keyVal (line : Str) : Option (Str × Str) :=
  if '=' ∈ line then
    some (strip (line.takeWhile (· ≠ '=')), strip ((line.dropWhile (· ≠ '=')).drop 1))
  else none

/-- `k` is the long or the short name of `o`. -/
def Names {D : Type} (o : Opt D) (k : Str) : Bool := o.name = k || o.short.map (fun c => [c]) = some k

/-- The option that a name means. -/
def who {D : Type} (decls : List (Opt D)) (k : Str) : Option Nat := decls.findIdx? (fun o => Names o k)

/-- No name means two options. -/
def Distinct {D : Type} (decls : List (Opt D)) : Prop :=
  ∀ (i j : Nat) (o p : Opt D) (k : Str), decls[i]? = some o → decls[j]? = some p → Names o k = true → Names p k = true → i = j

/-- The assignment written in a line; unknown names are skipped. -/
def lineAssign {D : Type} (decls : List (Opt D)) (l : Str) : Option (Nat × Str) :=
  match keyVal l with
  | none => none
  | some (k, v) => (who decls k).map (fun i => (i, v))

/-- The assignments written in a file. -/
def assigns {D : Type} (decls : List (Opt D)) (content : Str) : List (Nat × Str) :=
  (lines content).filterMap (lineAssign decls)

/-- The assignment made by a command-line item. -/
def argAssign {D : Type} (decls : List (Opt D)) : Arg → Option (Nat × Str)
  | .long i v => some (i, v)
  | .short ch v => (who decls [ch]).map (fun i => (i, v))
  | .bad => none

def isConf {D : Type} (decls : List (Opt D)) (i : Nat) : Prop := ∃ o, decls[i]? = some o ∧ o.val = .conf

/-- Splice in the files named by the configuration-file option. -/
inductive Expands {D : Type} (decls : List (Opt D)) (fs : Str → Option Str) :
    List (Nat × Str) → List (Nat × Str) → Prop where
  | nil : Expands decls fs [] []
  | plain {i v rest out} : ¬ isConf decls i → Expands decls fs rest out →
      Expands decls fs ((i, v) :: rest) ((i, v) :: out)
  | missing {i v rest out} : isConf decls i → fs v = none → Expands decls fs rest out →
      Expands decls fs ((i, v) :: rest) ((i, v) :: out)
  | file {i v rest out content inner} : isConf decls i → fs v = some content →
      Expands decls fs (assigns decls content) inner → Expands decls fs rest out →
      Expands decls fs ((i, v) :: rest) ((i, v) :: inner ++ out)

/-- The values assigned to option `i`, in order. -/
def valuesOf (i : Nat) (out : List (Nat × Str)) : List Str := (out.filter (fun a => a.1 = i)).map (·.2)

/-- `final` is what an option with default `dflt` holds after the assignments `vs`. -/
def Holds {D : Type} (env : Env D) (dflt : Val D) (vs : List Str) (final : Val D) : Prop :=
  match dflt with
  | .flag b => final = .flag (b || vs ≠ [])
  | .str s => final = .str (vs.getLast?.getD s)
  | .vec l => final = .vec (l ++ vs)
  | .int n => match vs.getLast? with
    | none => final = .int n
    | some v => ∃ m, env.stoi v = .ok m ∧ final = .int m
  | .dbl n => match vs.getLast? with
    | none => final = .dbl n
    | some v => ∃ m, env.stod v = .ok m ∧ final = .dbl m
  | .conf => final = .conf

end Spec.Conf
end Salticidae
