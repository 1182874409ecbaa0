import Verif.Model.Stat
import Verif.Spec.Net
/-
What the counters of a connection have to say.
-/
namespace Salticidae
namespace Spec.Stat
open Salticidae.Stat
open Salticidae.Net (Cfg)

/-- Payload sizes of the messages that send_msg has accepted at an end, in order. -/
def accepted {V : Type} {g : Cfg V} (s : St g) (i : Nat) : List Nat :=
  (s.sends.filter fun x => x.1 = i ∧ x.2.2.2 = true).map fun x => (g.enc x.2.1 x.2.2.1).buffer.length

/-- Payload sizes of all messages that send_msg was called with at an end. -/
def offered {V : Type} {g : Cfg V} (s : St g) (i : Nat) : List Nat :=
  (s.sends.filter fun x => x.1 = i).map fun x => (g.enc x.2.1 x.2.2.1).buffer.length

/-- Payload sizes of the messages from an end that handlers were called with. -/
def received {V : Type} {g : Cfg V} (s : St g) (i : Nat) : List Nat :=
  ((s.net.disp (g.node i)).calls.filter fun x => x.2.conn = i).map fun x => (Net.uncode x.2.tag).length

/-- A pair of counters is right for a list of messages: number and total size of the messages since some moment. -/
def Right (n b : BitVec 64) (l : List Nat) : Prop := ∃ k, n = BitVec.ofNat 64 (l.drop k).length ∧ b = BitVec.ofNat 64 (l.drop k).sum

/-- No statistics of end `i` are cleared. -/
def NoClear {V : Type} {g : Cfg V} (i : Nat) (as : List (Act g)) : Prop := ∀ f, Act.store i f ∉ as

/-- As Spec.Net.Proper, for the messages that send_msg is called with. -/
structure Proper {V : Type} (g : Cfg V) (as : List (Act g)) : Prop where
  codec : ∀ i op v, .call i op v ∈ as → (g.enc op v).offset = 0 ∧ g.dec op.toNat (DataStream.ofBytes (g.enc op v).buffer) = some v
  sizes : ∀ i, 0 < g.chunk i ∧ g.maxSegs i * g.chunk i < 2 ^ 63
  fits : ∀ i op v, .call i op v ∈ as → Net.Fits g (Salticidae.Net.mate i) op v
  handler : ∀ i op v, .call i op v ∈ as → Net.handlerOf (g.handlers (g.node (Salticidae.Net.mate i))) op.toNat ≠ none

end Spec.Stat
end Salticidae
