import Verif.Model.CertShare
/-!
C114: calls one by one.
-/
namespace Salticidae
namespace Spec.CertShare
open Salticidae.CertShare

/-- No call is made while another one is being executed. -/
def OneByOne (n : Nat) : St → List Act → Prop
  | _, [] => True
  | s, a :: as => ∀ t, step n s a = some t → (∀ j o, a = .call j o → ∀ k < n, s.th k = .idle) ∧ OneByOne n t as

/-- The Configs and networks that a call uses, makes or destroys. -/
def names : Op → List Nat
  | .copy s d => [s, d]
  | .drop h => [h]
  | .listen h => [h]

/-- Those that it makes or destroys. -/
def changes : Op → List Nat
  | .copy _ d => [d]
  | .drop h => [h]
  | .listen _ => []

/-- Two calls that a program does not make at the same time: one makes or destroys what the other one uses, or both are listen of one network. -/
def Clash (o o' : Op) : Prop := (∃ h ∈ changes o, h ∈ names o') ∨ (∃ h ∈ changes o', h ∈ names o) ∨ ∃ h, o = .listen h ∧ o' = .listen h

end Spec.CertShare
end Salticidae
