import Verif.Model.Pool
/-!
Words used by the properties of connection pools, about the observable history of a connection: how often
its hooks ran and its descriptor was closed, and what the connection callback was told.
-/
namespace Salticidae
namespace Spec.Pool
open Salticidae.Pool

/-- A state that can be reached from a started pool by `as`. -/
def Reaches (g : Cfg) (as : List Act) (s : St) : Prop := run g init as = some s

/-- Worker `w` serves connection `c`: it was given the connection and has not torn it down. -/
def Serves (s : St) (w c : Nat) : Bool := (s.conn c).worker = some w && (s.conn c).fed && !(s.conn c).term

/-- How many connections worker `w` serves. -/
def served (s : St) (w : Nat) : Nat := (List.range s.n).countP (Serves s w)

/-- No connection attempt is completed while the dispatcher is about to terminate the connection. -/
def NoRace (g : Cfg) (as : List Act) : Prop :=
  ∀ p ∈ trace g init as, ∀ c, p.2 = .connReady c → .dterm c ∉ p.1.wq 0

/-- What the connection callback may be told about one connection, in this order. -/
def Ordered (cbs : List Bool) : Prop := cbs = [] ∨ cbs = [true] ∨ cbs = [false] ∨ cbs = [true, false]

end Spec.Pool
end Salticidae
