import Verif.Model.Util
/-
Model of `Config`, include/salticidae/util.h:252-424 and src/util.cpp:223-352.
`getopt_long` is modelled in Model/Getopt: here, a command line is the list of its results.  `std::stoi` and
`std::stod` are parameters.  An `OptVal` object is owned by one option (the C++ API allows two
options to share one).  File contents are a parameter and do not change while parsing.
-/
namespace Salticidae
namespace Conf
open Util

/-- What can come out of a failing call. `ub`: `conf.find(optname)->second` of a missing name. -/
inductive Err where
  | undefinedOptVal | optvalInvalid | outOfRange | nameExists | lineTooLong | optInvalid | ub
  deriving DecidableEq, Repr

/-- The `OptVal` subclasses, util.h:279-383. -/
inductive Val (D : Type) where
  | flag (b : Bool) | str (s : Str) | int (i : Int) | dbl (d : D) | vec (l : List Str) | conf
  deriving DecidableEq, Repr

/-- `Config::Action`, util.h:254-258. -/
inductive Action where
  | switchOn | setVal | append
  deriving DecidableEq, Repr

/-- `Config::Opt`, util.h:386-405 (documentation string left out); `short = none` is `-1`. -/
structure Opt (D : Type) where
  name : Str
  short : Option Char
  action : Action
  val : Val D
  deriving DecidableEq, Repr

/-- `Config`, util.h:407-410.  `map` is the unordered_map `conf`: the first entry of a key counts. -/
structure Config (D : Type) where
  map : List (Str × Nat)
  opts : List (Opt D)
  fname : Str
  deriving DecidableEq, Repr

/-- The outside world. -/
structure Env (D : Type) where
  stoi : Str → Except Err Int
  stod : Str → Except Err D
  /-- `fopen` and the contents read by `fgets`. -/
  fs : Str → Option Str
  /-- `BUFF_SIZE`, util.cpp:269. -/
  buffSize : Nat

variable {D : Type}

/-- `unordered_map::find`. -/
def lookup (m : List (Str × Nat)) (k : Str) : Option Nat := (m.find? (fun e => e.1 = k)).map (·.2)

/-- `unordered_map::insert`: no effect when the key is present. -/
def insert (m : List (Str × Nat)) (k : Str) (i : Nat) : List (Str × Nat) :=
  if (lookup m k).isSome then m else m ++ [(k, i)]

/-- `Config::Config()`, util.h:418. -/
def Config.empty : Config D := ⟨[], [], []⟩

/-- `Config::add_opt`, util.cpp:238-250. -/
def addOpt (c : Config D) (o : Opt D) : Except Err (Config D) :=
  if (lookup c.map o.name).isSome then .error .nameExists
  else
    let i := c.opts.length
    let m := insert c.map o.name i
    let m := match o.short with
      | some ch => insert m [ch] i
      | none => m
    .ok { c with map := m, opts := c.opts ++ [o] }

/-- `Config::Config(conf_fname)`, util.h:419-423. -/
def Config.create (fname : Str) : Except Err (Config D) :=
  addOpt { (Config.empty : Config D) with fname := fname } ⟨"conf".toList, some 'c', .setVal, .conf⟩

/-- Registering options one after the other. -/
def addOpts : Config D → List (Opt D) → Except Err (Config D)
  | c, [] => .ok c
  | c, o :: os => match addOpt c o with
    | .error e => .error e
    | .ok c' => addOpts c' os

/-- Result of a call that may not return. -/
inductive Res (α : Type) where
  | diverge | throw (e : Err) | ok (a : α)
  deriving DecidableEq, Repr

/-- Run `f` over a list, stopping at the first exception. -/
def loop {α β : Type} (f : α → β → Res α) : α → List β → Res α
  | a, [] => .ok a
  | a, b :: bs => match f a b with
    | .ok a' => loop f a' bs
    | .throw e => .throw e
    | .diverge => .diverge

/-- Replace the value of option `i`. -/
def Config.set (c : Config D) (i : Nat) (o : Opt D) (v : Val D) : Config D :=
  { c with opts := c.opts.set i { o with val := v } }

/-- `Config::update(Opt &, const char *)`, util.cpp:252-261 with the virtual functions of
util.h:261-383; `load` is the recursive call of `OptValConf::set_val`, util.h:377. -/
def update (env : Env D) (load : Config D → Str → Res (Config D)) (c : Config D) (i : Nat) (arg : Str) :
    Res (Config D) :=
  match c.opts[i]? with
  | none => .throw .ub
  | some o =>
    match o.action, o.val with
    | .switchOn, .flag _ => .ok (c.set i o (.flag true))
    | .setVal, .str _ => .ok (c.set i o (.str arg))
    | .setVal, .int _ => match env.stoi arg with
      | .ok n => .ok (c.set i o (.int n))
      | .error e => .throw e
    | .setVal, .dbl _ => match env.stod arg with
      | .ok n => .ok (c.set i o (.dbl n))
      | .error e => .throw e
    | .setVal, .conf => load c arg
    | .append, .vec l => .ok (c.set i o (.vec (l ++ [arg])))
    | _, _ => .throw .undefinedOptVal

/-- Number of characters `fgets(buff, n, f)` takes from `s`. -/
def fgetsLen (n : Nat) (s : Str) : Nat := min (n - 1) ((s.takeWhile (· ≠ '\n')).length + 1)

/-- The successive results of `fgets`, util.cpp:275; at most `fuel` of them. -/
def chunks (n : Nat) : Nat → Str → List Str
  | 0, _ => []
  | fuel + 1, s => if s = [] then [] else s.take (fgetsLen n s) :: chunks n fuel (s.drop (fgetsLen n s))

/-- The body of the loop in `load`, util.cpp:277-294. -/
def loadLine (env : Env D) (load : Config D → Str → Res (Config D)) (c : Config D) (buff : Str) :
    Res (Config D) :=
  let line := buff.takeWhile (· ≠ '\x00')
  if line.length = env.buffSize - 1 then .throw .lineTooLong
  else match find line ['='] 0 with
    | none => .ok c
    | some pos =>
      let optname := trim (line.take pos) blanks
      let optval := trim (line.drop (pos + 1)) blanks
      match lookup c.map optname with
      | none => .ok c
      | some i => update env load c i optval

/-- `Config::load`, util.cpp:268-301; the fuel bounds the nesting of configuration files.
The Boolean result is only logged. -/
def load (env : Env D) : Nat → Config D → Str → Res (Config D)
  | 0, _, _ => .diverge
  | fuel + 1, c, fname =>
    match env.fs fname with
    | none => .ok c
    | some s => loop (loadLine env (load env fuel)) c (chunks env.buffSize s.length s)

/-- A result of `getopt_long`. -/
inductive Arg where
  | long (i : Nat) (arg : Str) | short (ch : Char) (arg : Str) | bad
  deriving DecidableEq, Repr

/-- The loop of `parse`, util.cpp:322-334. -/
def parseArg (env : Env D) (fuel : Nat) (c : Config D) : Arg → Res (Config D)
  | .bad => .throw .optInvalid
  | .long i arg => update env (load env fuel) c i arg
  | .short ch arg => match lookup c.map [ch] with
    | none => .throw .ub
    | some i => update env (load env fuel) c i arg

/-- `Config::parse`, util.cpp:303-336. -/
def parse (env : Env D) (fuel : Nat) (c : Config D) (args : List Arg) : Res (Config D) :=
  match load env fuel c c.fname with
  | .ok c' => loop (parseArg env fuel) c' args
  | r => r

end Conf
end Salticidae
