import Verif.Model.PoolMsg
/-! What users of a message network rely on about the order of callbacks and handlers. -/
namespace Salticidae
namespace Spec.PoolMsg
open Salticidae.PoolMsg Salticidae.Pool

/-- A state that can be reached from a started network by `as`. -/
def MReaches (g : Cfg) (as : List MAct) (s : MSt) : Prop := mrun g minit as = some s

/-- Every handler call for connection `c` comes after its `connected` callback. -/
def AfterConnected (c : Nat) (log : List Ev) : Prop := ∀ l r, log = l ++ .msg c :: r → .cb c true ∈ l

/-- ... and before its `disconnected` callback. -/
def BeforeDisconnected (c : Nat) (log : List Ev) : Prop := ∀ l r, log = l ++ .msg c :: r → .cb c false ∉ l

/-- Messages of connection `c` that wait for the user's thread. -/
def waiting (s : MSt) (c : Nat) : Nat := s.mq.count c

/-- How many messages of `c` have been given to handlers. -/
def handled (s : MSt) (c : Nat) : Nat := s.log.count (.msg c)

end Spec.PoolMsg
end Salticidae
