import Verif.Model.NetGone
/-!
Specification for C124: what is used when a network is destroyed.
-/
namespace Salticidae
namespace Spec.NetGone
open Salticidae.NetGone (Layer Ev Act Kind)

/-- The members of layer l are not used after they were destroyed. -/
def Clean (l : Layer) (log : List Ev) : Prop := ∀ a b, log = a ++ .gone l :: b → ∀ t, .use t l ∉ b

/-- A program that calls stop() (at some time after start()) before it destroys a network that it has started. -/
def StopsFirst (acts : List Act) : Prop :=
  ∀ as bs, acts = as ++ .destroy :: bs → .start ∈ as → ∃ x y, as = x ++ .stop :: y ∧ .start ∈ x

/-- Steps that are not the beginning of a new job. -/
def NoNewJob (acts : List Act) : Prop := ∀ i, .virt i ∉ acts ∧ .direct i ∉ acts

end Spec.NetGone
end Salticidae
