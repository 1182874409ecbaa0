/-!
Data races, as the C++ standard defines them ([intro.races]): two threads access the same memory, at
least one of them writes it, and neither access happens before the other.

A history is a list of events.  An event is what one thread does without interruption: it names the thread,
the memory it reads and writes, the earlier event it waited for (the one that posted the closure that is
executed here, or that computed the result waited for here), and whether it comes after all other threads
have been joined.
-/
namespace Salticidae
namespace Spec.Races

structure Ev (T X : Type) where
  thread : T
  waited : Option Nat := none
  joined : Bool := false
  reads : List X := []
  writes : List X := []
  deriving DecidableEq

/-- Event `i` directly precedes event `j`: same thread, or `j` waited for `i`, or `j` follows a join. -/
def Edge {T X : Type} (L : List (Ev T X)) (i j : Nat) : Prop :=
  i < j ∧ ∃ a b, L[i]? = some a ∧ L[j]? = some b ∧ (a.thread = b.thread ∨ b.waited = some i ∨ b.joined = true)

/-- `i` happens before `j`. -/
inductive HB {T X : Type} (L : List (Ev T X)) : Nat → Nat → Prop where
  | edge {i j : Nat} : Edge L i j → HB L i j
  | trans {i j k : Nat} : HB L i j → HB L j k → HB L i k

/-- The two events access `x`, one of them to write it. -/
def Conflict {T X : Type} (a b : Ev T X) (x : X) : Prop :=
  (x ∈ a.writes ∧ (x ∈ b.writes ∨ x ∈ b.reads)) ∨ (x ∈ a.reads ∧ x ∈ b.writes)

/-- No data race in the history. -/
def RaceFree {T X : Type} (L : List (Ev T X)) : Prop :=
  ∀ i j a b x, i < j → L[i]? = some a → L[j]? = some b → Conflict a b x → HB L i j

end Spec.Races
end Salticidae
