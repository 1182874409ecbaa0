/-
Specifications of split and trim that do not mention positions.
-/
namespace Salticidae
namespace Spec

/-- `ps` is the left-to-right splitting of `s` at `d`: joining the pieces with `d` gives `s`; no
piece contains `d`; and for every piece but the last, the `d` that ends it is the first one
(no occurrence of `d` begins earlier, even one that overlaps the delimiter). -/
def IsSplit {α : Type} (d s : List α) (ps : List (List α)) : Prop :=
  ps ≠ [] ∧ d.intercalate ps = s ∧ (∀ p ∈ ps, ¬ d <:+: p) ∧
  (∀ p ∈ ps.dropLast, ¬ d <:+: p ++ d.dropLast)

/-- `t` is `s` without its leading and trailing members of `space`. -/
def IsTrim {α : Type} (space s t : List α) : Prop :=
  ∃ l r, s = l ++ t ++ r ∧ (∀ c ∈ l, c ∈ space) ∧ (∀ c ∈ r, c ∈ space) ∧
    (∀ c, t.head? = some c → c ∉ space) ∧ (∀ c, t.getLast? = some c → c ∉ space)

end Spec
end Salticidae
