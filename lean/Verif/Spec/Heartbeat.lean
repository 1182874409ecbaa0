import Verif.Model.Heartbeat
/-!
The heartbeat as it is seen on the wire: a list of times of heartbeats sent and answers received.
-/
namespace Salticidae
namespace Spec.Heartbeat
open Salticidae.Heartbeat

/-- At most one heartbeat is unanswered: between two heartbeats there is an answer. -/
def OneUnanswered (log : List (Nat × Ev)) : Prop :=
  ∀ a b c t u, log = a ++ (t, Ev.ping) :: b ++ (u, Ev.ping) :: c → ∃ w, (w, Ev.pong) ∈ b

/-- Heartbeats are at least `T` apart. -/
def Apart (T : Nat) (log : List (Nat × Ev)) : Prop :=
  ∀ a b c t u, log = a ++ (t, Ev.ping) :: b ++ (u, Ev.ping) :: c → t + T ≤ u

/-- The peer has been silent since the heartbeat of time `t`. -/
def SilentSince (t : Nat) (log : List (Nat × Ev)) : Prop := ∃ a, log = a ++ [(t, Ev.ping)]

/-- The peer answers every heartbeat within `R`: time does not pass beyond that while a heartbeat is unanswered. -/
def Answers (R : Nat) (s : St) : Act → Prop
  | .tick d => ∀ t, SilentSince t s.log → s.now + d ≤ t + R
  | _ => True

end Spec.Heartbeat
end Salticidae
