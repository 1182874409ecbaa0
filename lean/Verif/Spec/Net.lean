import Verif.Model.Net
/-
Delivery of typed messages, over the system of Model/Net.
-/
namespace Salticidae
namespace Spec.Net
open Salticidae.Net

/-- The handler registered last for an opcode. -/
def handlerOf (l : List (Nat × Disp.Handler)) (op : Nat) : Option Disp.Handler :=
  (l.reverse.find? (fun x => x.1 = op)).map (·.2)

/-- The message can be sent to end `j`: it is within the limit that `j` has set, and below 4 GiB. -/
def Fits {V : Type} (g : Cfg V) (j : Nat) (op : BitVec (8 * g.ow)) (v : V) : Prop :=
  (g.enc op v).buffer.length ≤ g.maxMsg j ∧ (g.enc op v).buffer.length < 2 ^ 32

/-- What the user of the library has to see to: message types are read as they were written, messages fit, and what is sent to an
end has a handler there. -/
structure Proper {V : Type} (g : Cfg V) (as : List (Act g)) : Prop where
  codec : ∀ i op v ok, .send i op v ok ∈ as → (g.enc op v).offset = 0 ∧ g.dec op.toNat (DataStream.ofBytes (g.enc op v).buffer) = some v
  sizes : ∀ i, 0 < g.chunk i ∧ g.maxSegs i * g.chunk i < 2 ^ 63
  fits : ∀ i op v ok, .send i op v ok ∈ as → Fits g (mate i) op v
  handler : ∀ i op v ok, .send i op v ok ∈ as → handlerOf (g.handlers (g.node (mate i))) op.toNat ≠ none

/-- What the handlers of end `i`'s node have to be given for messages sent from the other end. -/
def expected {V : Type} (g : Cfg V) (i : Nat) (l : List (BitVec (8 * g.ow) × V)) : List (Option Disp.Handler × Nat × Option V) :=
  l.map fun m => (handlerOf (g.handlers (g.node i)) m.1.toNat, m.1.toNat, some m.2)

end Spec.Net
end Salticidae
