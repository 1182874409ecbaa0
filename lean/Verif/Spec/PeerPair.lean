import Verif.Model.PeerPair
import Verif.Spec.PeerNet
/-!
What it means for the two ends to agree.
-/
namespace Salticidae
namespace Spec.PeerPair
open Salticidae.PeerPair Salticidae.PeerNet

/-- The connection over which node `s` is connected to the other node, as its user is told: the one used to send to
it, when the last report about it was that it is connected. -/
def uses (P : Pair) (n : Net) (s : Bool) : Option Nat :=
  match getPeerConn (n.node s) (P.pid (!s)) with
  | none => none
  | some c => if Spec.PeerNet.lastReport (n.node s) c = some true then some c else none

/-- Nothing is left to do: every message has been processed, every connection one end of which is gone or was asked to go has been torn down,
and no handshake waits. -/
def Settled (P : Pair) (mate : Bool → Nat → Nat) (n : Net) : Prop := ∀ a, step P mate n a = none

/-- The handshake messages have been processed: the first message on each of the listed connections. -/
def Processed (l : List Nat) (n : Net) : Prop := ∀ s, ∀ c ∈ l, 1 ≤ n.got s c

/-- No node that is connected is asked by a new connection to replace the old one. -/
def NoTakeover (P : Pair) (mate : Bool → Nat → Nat) (n : Net) : PeerPair.Act → Prop
  | .deliver s c draw => ∀ m, next mate n s c = some m → Spec.PeerNet.NoTakeover (P.cfg s) (n.node s) (handle c draw m)
  | _ => True

/-- Connections are torn down only after the handshake messages have been processed. -/
def LateTeardown (l : List Nat) (n : Net) : PeerPair.Act → Prop
  | .teardown _ _ => Processed l n
  | _ => True

end Spec.PeerPair
end Salticidae
