import Verif.Model.Config
/-
Model of the command line that Config::parse (util.cpp:303-336) gives to getopt_long: the tables it makes (util.cpp:224-236, 307-321), glibc's getopt_long as documented, with its
abbreviations, clusters of short options, order of arguments, and global variable optind, and what parse does with each result (322-334).

Simplified: no option has a short name of which getopt makes something special in combinations (`;` after `W`), nor a zero byte; char is signed, so that -1 is no character; messages that getopt prints are left out.
-/
namespace Salticidae
namespace Getopt
open Util (Str)
open Conf (Opt Config Env Res Arg Err)

/-- An entry of longopts with its short name: `arg` is required_argument (util.cpp:232-235). -/
structure LOpt where
  name : Str
  short : Option Char
  arg : Bool
  deriving DecidableEq, Repr

/-- Opt::Opt, util.cpp:224-236. -/
def LOpt.of {D : Type} (o : Opt D) : LOpt := ⟨o.name, o.short, o.action ≠ .switchOn⟩

/-- What an option adds to shortopts, util.cpp:315-320. -/
def LOpt.piece (o : LOpt) : Str :=
  match o.short with
  | some c => if o.arg then [c, ':'] else [c]
  | none => []

/-- The string shortopts, util.cpp:310-321. -/
def shortopts (os : List LOpt) : Str := os.flatMap LOpt.piece

/-- What getopt does with arguments that are not options: they are moved to the end; it stops at the first; it returns them as options with the number 1. -/
inductive Order where
  | permute | require | inOrder
  deriving DecidableEq, Repr

/-- The first character of shortopts may be '-' or '+'; `posix`: the environment has POSIXLY_CORRECT. -/
def order (posix : Bool) : Str → Order × Str
  | '-' :: s => (.inOrder, s)
  | '+' :: s => (.require, s)
  | s => (if posix then .require else .permute, s)

/-- A result of getopt_long: the number of a long option (val - 0x100), or a character. -/
inductive Id where
  | long (i : Nat) | char (c : Char)
  deriving DecidableEq, Repr

/-- … with optarg (`none`: a null pointer). -/
abbrev Event := Id × Option Str

inductive Needs where
  | no | required | optional
  deriving DecidableEq, Repr

/-- A short option in shortopts. -/
def findShort (s : Str) (c : Char) : Option Needs :=
  if c = ':' ∨ c = ';' then none
  else match s.dropWhile (fun d => d ≠ c) with
    | [] => none
    | _ :: ':' :: ':' :: _ => some .optional
    | _ :: ':' :: _ => some .required
    | _ :: _ => some .no

/-- A long option: that name, or the only one that begins with it. -/
def findLong (os : List LOpt) (name : Str) : Option Nat :=
  match os.findIdx? (fun o => o.name = name) with
  | some i => some i
  | none => match (List.range os.length).filter (fun i => (os[i]?.map (fun o => name.isPrefixOf o.name)).getD false) with
    | [i] => some i
    | _ => none

/-- The result when the argument of an option is missing. -/
def missing (s : Str) : Event := (.char (if s.head? = some ':' then ':' else '?'), none)

/-- Short options in one argument; `as`: the arguments that follow. -/
def cluster (s : Str) : Str → List Str → List Event × List Str
  | [], as => ([], as)
  | c :: cs, as => match findShort s c with
    | none => ((.char '?', none) :: (cluster s cs as).1, (cluster s cs as).2)
    | some .no => ((.char c, none) :: (cluster s cs as).1, (cluster s cs as).2)
    | some .optional => ([(.char c, if cs = [] then none else some cs)], as)
    | some .required =>
      if cs = [] then
        match as with
        | [] => ([missing s], [])
        | a :: as => ([(.char c, some a)], as)
      else ([(.char c, some cs)], as)

/-- A long option, without its two dashes. -/
def long (os : List LOpt) (s : Str) (body : Str) (as : List Str) : List Event × List Str :=
  match findLong os (body.takeWhile (fun d => d ≠ '=')) with
  | none => ([(.char '?', none)], as)
  | some i => match os[i]?.map (·.arg), body.dropWhile (fun d => d ≠ '=') with
    | some true, _ :: v => ([(.long i, some v)], as)
    | some true, [] => match as with
      | [] => ([missing s], [])
      | a :: as => ([(.long i, some a)], as)
    | _, _ :: _ => ([(.char '?', none)], as)
    | _, [] => ([(.long i, none)], as)

/-- The results of getopt_long, one after the other, and the arguments that are left (at the end of argv). -/
def scan (o : Order) (s : Str) (os : List LOpt) : Nat → List Str → List Event × List Str
  | 0, as => ([], as)
  | _ + 1, [] => ([], [])
  | n + 1, a :: as =>
    match a with
    | ['-', '-'] => ([], as)
    | '-' :: '-' :: body => ((long os s body as).1 ++ (scan o s os n (long os s body as).2).1, (scan o s os n (long os s body as).2).2)
    | '-' :: c :: cs => ((cluster s (c :: cs) as).1 ++ (scan o s os n (cluster s (c :: cs) as).2).1, (scan o s os n (cluster s (c :: cs) as).2).2)
    | a => match o with
      | .permute => ((scan o s os n as).1, a :: (scan o s os n as).2)
      | .require => ([], a :: as)
      | .inOrder => ((.char '\x01', some a) :: (scan o s os n as).1, (scan o s os n as).2)

/-- All of it; `optind` is getopt's global variable, which is 1 when the program starts: arguments before it are not looked at. -/
def getopt (posix : Bool) (os : List LOpt) (optind : Nat) (argv : List Str) : List Event × List Str :=
  let p := order posix (shortopts os)
  scan p.1 p.2 os argv.length (argv.drop optind)

variable {D : Type}

/-- What parse does with a result, util.cpp:325-333: the option that is updated.  `none`: a null pointer is given to set_val or append, which make a std::string of it.  (Names and actions do not change
when options are set.) -/
def toArg (c : Config D) : Event → Option Arg
  | (.char '?', _) => some .bad
  | (.long i, some a) => some (.long i a)
  | (.char ch, some a) => some (.short ch a)
  | (.long i, none) => if c.opts[i]?.map (·.action) = some .switchOn then some (.long i []) else none
  | (.char ch, none) => match Conf.lookup c.map [ch] with
    | none => some (.short ch [])
    | some i => if c.opts[i]?.map (·.action) = some .switchOn then some (.short ch []) else none

/-- The loop, util.cpp:322-334. -/
def eventStep (env : Env D) (fuel : Nat) (c : Config D) : Option Arg → Res (Config D)
  | none => .throw .ub
  | some a => Conf.parseArg env fuel c a

/-- Config::parse, util.cpp:303-336, of argv (argv[0] is the name of the program): the configuration, and the arguments that are left: those from the index that it returns. -/
def parse (env : Env D) (fuel : Nat) (posix : Bool) (c : Config D) (optind : Nat) (argv : List Str) : Res (Config D) × List Str :=
  let r := getopt posix (c.opts.map LOpt.of) optind argv
  (match Conf.load env fuel c c.fname with
    | .ok c' => Conf.loop (eventStep env fuel) c' (r.1.map (toArg c))
    | r => r, r.2)

/-- optind afterwards, which parse returns. -/
def optindAfter (posix : Bool) (c : Config D) (optind : Nat) (argv : List Str) : Nat :=
  argv.length - (getopt posix (c.opts.map LOpt.of) optind argv).2.length

end Getopt
end Salticidae
