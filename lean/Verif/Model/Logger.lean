import Verif.Model.Util
/-
Model of Logger, include/salticidae/util.h:179-211 and src/util.cpp:71-77, 142-201: programs of several threads that
make, copy and destroy loggers and log through them; with the part of the system they see: a table of descriptors, open files with
their positions, and the result buffer of `localtime`, which all threads share.

A call of `info` etc. takes two steps: `begin` looks at the clock and calls `localtime`; `emit` formats the line and writes it with
one `write`.  Files are numbered; file i below `nstd` is what descriptor i was when the program started (standard input, output, error).

Simplified: formatting `fmt` with its arguments gives the text `text`, if the buffer of `vstringprintf` is large enough; a `write` is atomic, and
the system takes the first `k` bytes of it; `strftime` gives `sec` of the calendar time; `open` without O_APPEND starts at position 0; the permissions of a new file (the
third argument of `open` is missing) are not modelled.
-/
namespace Salticidae
namespace Logger
open Util (Str vstringprintf)

inductive Level | info | debug | warning | error
  deriving DecidableEq, Repr

/-- util.cpp:179-200. -/
def Level.tag : Level → Str
  | .info => "info".toList
  | .debug => "debug".toList
  | .warning => "warn".toList
  | .error => "error".toList

/-- util.cpp:71-75, 156-159. -/
def Level.color : Level → Str
  | .info => "\x1b[32m".toList
  | .debug => "\x1b[34m".toList
  | .warning => "\x1b[33m".toList
  | .error => "\x1b[31m".toList

/-- util.cpp:77. -/
def reset : Str := "\x1b[0m".toList

/-- The system. -/
structure Cfg where
  sec : Nat → Str        -- what strftime gives for a second: date and time
  stream : Nat → Bool    -- a terminal or a pipe: what is written is appended
  tty : Nat → Bool
  nstd : Nat             -- descriptors open at the start

/-- An open file. -/
structure Desc where
  file : Nat
  off : Nat
  deriving DecidableEq, Repr

/-- A Logger object, util.h:180-187. -/
structure Lg where
  out : Nat
  opened : Bool
  pre : Str
  col : Bool             -- set_color has set colors
  deriving DecidableEq, Repr

/-- A call that goes on: the logger, and the arguments; `us`: the microseconds read from the clock. -/
structure Call where
  lg : Nat
  lvl : Level
  text : Str
  s : Nat                -- ghost: the second read from the clock
  us : Nat
  deriving DecidableEq, Repr

structure St where
  files : Nat → Str
  fds : List (Option Desc)
  lgs : Nat → Option Lg
  tm : Nat               -- the buffer of localtime: the second it stands for
  calls : List Call

/-- The start: the descriptors 0 to nstd - 1 are open, files have the contents `old`. -/
def init (g : Cfg) (old : Nat → Str) : St :=
  ⟨old, (List.range g.nstd).map (fun i => some ⟨i, (old i).length⟩), fun _ => none, 0, []⟩

/-- A number below 10^6 with six digits (`%06u`). -/
def pad6 (n : Nat) : Str :=
  [100000, 10000, 1000, 100, 10, 1].map fun d => Char.ofNat ('0'.toNat + n / d % 10)

/-- get_current_datetime, util.cpp:142-151: `tm` is what localtime's buffer holds when strftime reads it. -/
def datetime (g : Cfg) (tm us : Nat) : Str := g.sec tm ++ '.' :: pad6 us

/-- The first part of a line, util.cpp:170. -/
def head (g : Cfg) (pre : Str) (lvl : Level) (tm us : Nat) : Str :=
  datetime g tm us ++ " [".toList ++ pre ++ " ".toList ++ lvl.tag ++ "] ".toList

/-- The text that Logger::write builds, util.cpp:167-173. -/
def buff (g : Cfg) (l : Lg) (lvl : Level) (tm us : Nat) (text : Str) : Str :=
  (if l.col then lvl.color else []) ++ vstringprintf 1024 (head g l.pre lvl tm us) ++ (if l.col then reset else []) ++
    vstringprintf 1024 text ++ ['\n']

/-- Store bytes into a file at a position. -/
def put (content : Str) (off : Nat) (bs : Str) : Str :=
  content.take off ++ List.replicate (off - content.length) '\x00' ++ bs ++ content.drop (off + bs.length)

/-- `write(fd, bs, ...)` when the system takes the first `k` bytes; nothing happens if `fd` is not open. -/
def write (g : Cfg) (s : St) (fd : Nat) (bs : Str) (k : Nat) : St :=
  match s.fds[fd]? with
  | some (some d) =>
    let b := bs.take k
    let c := if g.stream d.file then s.files d.file ++ b else put (s.files d.file) d.off b
    { s with
      files := fun f => if f = d.file then c else s.files f
      fds := s.fds.set fd (some { d with off := d.off + b.length }) }
  | _ => s

/-- The lowest descriptor that is free gets `d`. -/
def alloc (fds : List (Option Desc)) (d : Desc) : Nat × List (Option Desc) :=
  match fds.findIdx? (·.isNone) with
  | some i => (i, fds.set i (some d))
  | none => (fds.length, fds ++ [some d])

/-- `isatty(fd)`, util.h:205. -/
def isatty (g : Cfg) (fds : List (Option Desc)) (fd : Nat) : Bool :=
  match fds[fd]? with
  | some (some d) => g.tty d.file
  | _ => false

inductive Op where
  /-- `Logger x(pre, filename)`, util.h:192-197; `ok`: the file can be opened. -/
  | file (x f : Nat) (pre : Str) (ok : Bool)
  /-- `Logger x(pre, fd)`, util.h:190-191. -/
  | fd (x n : Nat) (pre : Str)
  /-- `Logger x(y)`: the copy constructor the compiler provides. -/
  | copy (x y : Nat)
  /-- `~Logger`, util.h:199. -/
  | destroy (x : Nat)
  /-- A thread calls `x.info(...)` etc. at the time `s` seconds `us` microseconds, util.cpp:142-147. -/
  | begin (x : Nat) (lvl : Level) (text : Str) (s us : Nat)
  /-- The thread of the c-th call goes on to its end, util.cpp:148-151, 165-174. -/
  | emit (c k : Nat)
  deriving DecidableEq, Repr

/-- What the program sees. -/
inductive Out where
  | none
  | failed
  deriving DecidableEq, Repr

def setLg (s : St) (x : Nat) (l : Option Lg) : St := { s with lgs := fun z => if z = x then l else s.lgs z }

/-- One step; `none`: undefined behaviour (a logger that does not exist is used, or made twice). -/
def step (g : Cfg) (s : St) : Op → Option (St × Out)
  -- util.h:192-197
  | .file x f pre ok =>
    match s.lgs x with
    | some _ => none
    | none =>
      if ok then
        let r := alloc s.fds ⟨f, 0⟩
        some (setLg { s with fds := r.2 } x (some ⟨r.1, true, pre, isatty g r.2 r.1⟩), .none)
      else some (s, .failed)
  -- util.h:190-191
  | .fd x n pre =>
    match s.lgs x with
    | some _ => none
    | none => some (setLg s x (some ⟨n, false, pre, isatty g s.fds n⟩), .none)
  | .copy x y =>
    match s.lgs x, s.lgs y with
    | none, some l => some (setLg s x (some l), .none)
    | _, _ => none
  -- util.h:199
  | .destroy x =>
    match s.lgs x with
    | none => none
    | some l => some (setLg { s with fds := if l.opened then s.fds.set l.out none else s.fds } x none, .none)
  -- util.cpp:142-147: gettimeofday, localtime
  | .begin x lvl text sec us =>
    match s.lgs x with
    | none => none
    | some _ => some ({ s with tm := sec, calls := s.calls ++ [⟨x, lvl, text, sec, us⟩] }, .none)
  -- util.cpp:148-151, 165-174
  | .emit c k =>
    match s.calls[c]? with
    | none => some (s, .none)
    | some p =>
      match s.lgs p.lg with
      | none => none
      | some l => some (write g { s with calls := s.calls.eraseIdx c } l.out (buff g l p.lvl s.tm p.us p.text) k, .none)

def run (g : Cfg) : St → List Op → Option (St × List Out)
  | s, [] => some (s, [])
  | s, op :: ops =>
    match step g s op with
    | none => none
    | some (s', o) =>
      match run g s' ops with
      | none => none
      | some (t, os) => some (t, o :: os)

end Logger
end Salticidae
