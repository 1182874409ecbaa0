import Verif.Model.CConn
/-!
Words used by the property of the handles of the C interface.
-/
namespace Salticidae
namespace Spec.CConn
open Salticidae.CConn Salticidae.ConnRef

/-- The handle at address `p` was given to the program for connection `c` and has not been freed. -/
def Has (s : St) (p c : Nat) : Prop := (p, c) ∈ s.hs

/-- What a handle is good for: the connection exists, ... -/
structure Usable (g : Salticidae.CConn.Cfg) (s : St) (p c : Nat) : Prop where
  /-- ... its object is not destroyed, ... -/
  alive : s.r.gone c = 0
  /-- ... the address refers to this connection and no other, ... -/
  only : ∀ d, Has s p d → d = c
  /-- ... a look at it succeeds, ... -/
  look : (step g s (.look p)).isSome = true
  /-- ... as does a copy, which is another handle of the same connection at an address of its own, ... -/
  copy : ∃ t q, step g s (.copy p) = some t ∧ q ≠ p ∧ Has t q c ∧ Has t p c ∧ ∀ d, ¬ Has s q d
  /-- ... and it can be freed, which leaves all other handles. -/
  free : ∃ t, step g s (.free p) = some t ∧ (∀ d, ¬ Has t p d) ∧ ∀ q d, q ≠ p → (Has t q d ↔ Has s q d)

/-- The calls of the C++ interface that a program of the C interface makes. -/
def below (s : St) : Act → List RAct
  | .sys a => [a]
  | .connect fd ok => [.dial fd ok true]
  | .told b => [.told b true]
  | .handle => [.handle true]
  | .copy p => ((deref s p).map RAct.copy).toList
  | .free p => ((deref s p).map RAct.release).toList
  | .look _ => []
  | .terminate p => ((deref s p).map (fun c => RAct.pool (.terminate c))).toList

/-- Those of a run. -/
def calls (g : Salticidae.CConn.Cfg) : St → List Act → List RAct
  | _, [] => []
  | s, a :: as => below s a ++ ((step g s a).map (fun t => calls g t as)).getD []

end Spec.CConn
end Salticidae
