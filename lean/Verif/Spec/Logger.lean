import Verif.Model.Logger
/-
What a program that uses loggers relies on: every call appends one line to the file of its logger.  Uses from the model the syntax of programs,
the tags and colors, and how a time is printed.
-/
namespace Salticidae.Spec.Logger
open Salticidae.Util (Str)
open Salticidae.Logger (Cfg Level Op Out Call)

/-- A logger: its file, its prefix. -/
structure Lg where
  file : Nat
  pre : Str
  own : Bool       -- it was made from a file name
  deriving DecidableEq

structure Env where
  files : Nat → Str
  lgs : List (Nat × Lg)     -- the loggers that exist, with their names
  calls : List Call         -- the calls that go on

def start (old : Nat → Str) : Env := ⟨old, [], []⟩

/-- The logger of a name. -/
def Env.get (e : Env) (x : Nat) : Option Lg := e.lgs.lookup x

/-- A complete line: time of the call, prefix, kind, text; colors on a terminal. -/
def line (g : Cfg) (l : Lg) (p : Call) : Str :=
  let h := g.sec p.s ++ ".".toList ++ Salticidae.Logger.pad6 p.us ++ " [".toList ++ l.pre ++ " ".toList ++ p.lvl.tag ++ "] ".toList
  (if g.tty l.file then p.lvl.color ++ h ++ Salticidae.Logger.reset else h) ++ p.text ++ "\n".toList

def add (e : Env) (x : Nat) (l : Lg) : Env := { e with lgs := (x, l) :: e.lgs }

/-- One step; `none`: not a legitimate one. -/
def step (g : Cfg) (e : Env) : Op → Option (Env × Out)
  | .file x f pre ok =>
    match e.get x with
    | none => if ok then some (add e x ⟨f, pre, true⟩, .none) else some (e, .failed)
    | _ => none
  | .fd x n pre =>
    match e.get x with
    | none => if n < g.nstd then some (add e x ⟨n, pre, false⟩, .none) else none
    | _ => none
  | .copy x y =>
    match e.get x, e.get y with
    | none, some l => some (add e x l, .none)
    | _, _ => none
  | .destroy x =>
    match e.get x with
    | none => none
    | some _ => if e.calls.any (·.lg == x) then none else some ({ e with lgs := e.lgs.filter (·.1 ≠ x) }, .none)
  | .begin x lvl text s us =>
    match e.get x with
    | none => none
    | some _ => if us < 1000000 then some ({ e with calls := e.calls ++ [⟨x, lvl, text, s, us⟩] }, .none) else none
  | .emit c _ =>
    match e.calls[c]? with
    | none => none
    | some p =>
      match e.get p.lg with
      | none => none
      | some l => some ({ e with calls := e.calls.eraseIdx c, files := fun f => if f = l.file then e.files f ++ line g l p else e.files f }, .none)

/-- The steps for which the library keeps its word: a file is opened only when it is empty and no logger has it open (or when it is a
terminal or a pipe); loggers made from descriptors are on terminals or pipes; loggers are not copied; calls that overlap are made in the same second; head and text of a
line have fewer than 1024 characters each; the system takes all bytes of a line at once. -/
def careful (g : Cfg) (e : Env) : Op → Bool
  | .file _ f _ _ => g.stream f || (e.files f == [] && e.lgs.all (·.2.file != f))
  | .fd _ i _ => g.stream i
  | .copy _ _ => false
  | .destroy _ => true
  | .begin x lvl text s us => e.calls.all (·.s == s) && decide (text.length < 1024) && (match e.get x with
      | some l => decide ((Salticidae.Logger.head g l.pre lvl s us).length < 1024)
      | none => false)
  | .emit c k => match e.calls[c]? with
      | some p => (match e.get p.lg with
        | some l => decide ((line g l p).length ≤ k)
        | none => false)
      | none => false

def follow (g : Cfg) (held : Env → Op → Bool) : Env → List Op → Option (Env × List Out)
  | e, [] => some (e, [])
  | e, op :: ops =>
    if held e op then
      match step g e op with
      | none => none
      | some (e', o) =>
        match follow g held e' ops with
        | none => none
        | some (t, os) => some (t, o :: os)
    else none

end Salticidae.Spec.Logger
