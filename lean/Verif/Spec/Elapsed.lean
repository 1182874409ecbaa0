import Verif.Model.Elapsed
/-!
Specification for C125: the time between two readings of the clocks, in seconds.
-/
namespace Salticidae
namespace Spec.Elapsed
open Salticidae.Elapsed (Reading Op)

/-- What gettimeofday can show (until the year 2242). -/
def Valid (r : Reading) : Prop := r.usec < 1000000 ∧ r.sec < 2 ^ 33

def wallTime (r : Reading) : Rat := r.sec + (r.usec : Rat) / 1000000
def cpuTime (r : Reading) : Rat := (r.cpu : Rat) / 1000000

/-- A use of the object: anything, start at r0, (only) stops, and at last stop at r1. -/
def Measures (ops : List Op) (r0 r1 : Reading) : Prop := ∃ pre mid : List Op, ops = pre ++ [.start r0] ++ mid ++ [.stop r1] ∧ ∀ r, .start r ∉ mid

end Spec.Elapsed
end Salticidae
