import Verif.Model.Ieee
/-
Model of `ElapsedTime`, util.h:243-251 and util.cpp:206-224.

Simplified: the logging of stop(true) is left out.
-/
namespace Salticidae
namespace Elapsed
open Ieee

/-- What the clocks show: gettimeofday (seconds, microseconds) and clock() (CLOCKS_PER_SEC is 1000000 on every POSIX system). -/
structure Reading where
  sec : Nat
  usec : Nat
  cpu : Nat
  deriving DecidableEq, Repr

/-- tv_sec + tv_usec * 1e-6 in double, util.cpp:218-219. -/
def wallSec (r : Reading) : Rat := fl 53 (fl 53 r.sec + fl 53 (fl 53 r.usec * fl 53 (1 / 1000000)))

/-- (float)clock() / CLOCKS_PER_SEC in float, util.cpp:216-217. -/
def cpuSec (r : Reading) : Rat := fl 24 (fl 24 r.cpu / fl 24 1000000)

/-- An object: the members t0 and cpu_t0 (`none`: not initialised), elapsed_sec and cpu_elapsed_sec. -/
structure Obj where
  t0 : Option Reading
  elapsed : Rat
  cpuElapsed : Rat

inductive Op where
  | start (r : Reading)
  | stop (r : Reading)

/-- start, util.cpp:206-210; stop, util.cpp:212-224: `none` is the use of members that were never initialised. -/
def step (o : Obj) : Op → Option Obj
  | .start r => some { o with t0 := some r }
  | .stop r => match o.t0 with
    | none => none
    | some r0 => some { o with elapsed := fl 53 (wallSec r - wallSec r0), cpuElapsed := fl 24 (cpuSec r - cpuSec r0) }

def run : Obj → List Op → Option Obj
  | o, [] => some o
  | o, a :: as => (step o a).bind fun o => run o as

end Elapsed
end Salticidae
