import Verif.Model.Fatal
/-!
Words used by the property of connections and fatal errors.
-/
namespace Salticidae
namespace Spec.Fatal
open Salticidae.Fatal

/-- It depends on the other side how connection `c` goes on: the attempt to connect, or the TLS handshake, is not finished. -/
def Pending (s : HSt) (c : Nat) : Prop := (s.p.conn c).evConn = true ∨ (s.p.conn c).handshake = true

/-- The connection callback has been called for connection `c`. -/
def Told (s : HSt) (c : Nat) : Prop := (s.p.conn c).cbs ≠ []

/-- stop(): the pool after all threads have been joined (Model/Pool, `finalize`). -/
def stopped (s : HSt) : Pool.St := Pool.finalize s.p

end Spec.Fatal
end Salticidae
