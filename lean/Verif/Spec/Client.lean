import Verif.Model.Client
/-!
Which client is connected from an address, read off the history of connections.
-/
namespace Salticidae
namespace Spec.Client
open Salticidae.Client

/-- The connections set up in `h`, the latest first. -/
def setUp : List Ev → List Nat
  | [] => []
  | .setup c :: h => setUp h ++ [c]
  | .teardown _ :: h => setUp h

/-- The client connected from `a` after `h`: the latest connection from there that has been set up and
not torn down. -/
def current (addr : Nat → Nat) (h : List Ev) (a : Nat) : Option Nat :=
  (setUp h).find? (fun c => addr c = a && !h.contains (.teardown c))

/-- What can happen to one connection: it is set up at most once, torn down at most once, and never set up after its
teardown (see C48 for the rare race in the connection pool that breaks the last point). -/
def Valid (h : List Ev) : Prop :=
  h.Nodup ∧ ∀ c h1 h2, h = h1 ++ .teardown c :: h2 → .setup c ∉ h2

/-- When a connection is torn down no other one from the same address is in place. -/
def NoOverlap (addr : Nat → Nat) (h : List Ev) : Prop :=
  ∀ c h1 h2, h = h1 ++ .teardown c :: h2 → ∀ d, addr d = addr c → .setup d ∈ h1 → .teardown d ∉ h1 → d = c

end Spec.Client
end Salticidae
