import Verif.Model.ConnRef
/-!
Words used by the property of connection objects.
-/
namespace Salticidae
namespace Spec.ConnRef
open Salticidae.ConnRef

/-- The network has closed connection `c` and told everybody. -/
def TornDown (s : RSt) (c : Nat) : Prop := (s.m.st.conn c).closed ≠ 0

/-- What a program can rely on about the object of connection `c`. -/
structure WellKept (g : Cfg) (s : RSt) (c : Nat) : Prop where
  /-- It is destroyed at most once. -/
  once : s.gone c ≤ 1
  /-- The object exists as long as the connection does, whether the program holds a handle or not, ... -/
  open_ : s.phase ≠ .destroyed → ¬ TornDown s c → s.gone c = 0
  /-- ... as long as the program holds a handle, ... -/
  owned : s.user c ≠ 0 → s.gone c = 0
  /-- ... and as long as there is a message or a report about it to be delivered. -/
  wanted : waits g s c = true → s.gone c = 0
  /-- When none of this is the case any more, it does not exist any more. -/
  freed : s.phase = .running → TornDown s c → s.user c = 0 → waits g s c = false → s.gone c = 1
  /-- Without the network only the handles of the program keep it. -/
  ended : s.phase = .destroyed → s.user c = 0 → s.gone c = 1

/-- No connection attempt is completed while the dispatcher is about to terminate the connection. -/
def NoRace (g : Cfg) (as : List RAct) : Prop :=
  ∀ p ∈ rtrace g rinit as, ∀ c, p.2 = .pool (.connReady c) → .dterm c ∉ p.1.m.st.wq 0

end Spec.ConnRef
end Salticidae
