import Verif.Model.Timer
/-
What C108 says about a history, in terms of what the program did and what was reported to it.
-/
namespace Salticidae
namespace Spec.Timer
open Salticidae.Timer

/-- Nanoseconds that have passed. -/
def elapsed : List Act → Nat
  | [] => 0
  | .clock d :: tr => d + elapsed tr
  | _ :: tr => elapsed tr

/-- The clock of the loop (milliseconds): the time when an iteration, or the handling of
descriptors, last began.  The first argument is the time when the history begins, the second what the clock shows then. -/
def loopClock : Nat → Nat → List Act → Nat
  | _, l, [] => l
  | n, l, .clock d :: tr => loopClock (n + d) l tr
  | n, _, .iter :: tr => loopClock n (n / 1000000) tr
  | n, _, .woke :: tr => loopClock n (n / 1000000) tr
  | n, l, _ :: tr => loopClock n l tr

/-- The object is started, stopped, or reports something. -/
def touches (i : Nat) : Act → Bool
  | .add j _ => j == i
  | .addFd j _ _ => j == i
  | .del j => j == i
  | .clear j => j == i
  | .fire j => j == i
  | .ready j _ => j == i
  | .error j => j == i
  | _ => false

/-- The object starts to wait: it is added, or it reports something about its descriptor. -/
def restarts (i : Nat) : Act → Bool
  | .add j _ => j == i
  | .addFd j _ _ => j == i
  | .ready j _ => j == i
  | .error j => j == i
  | _ => false

/-- The time for which the object was last added. -/
def period (i : Nat) : List Act → Option Rat → Option Rat
  | [], p => p
  | .add j t :: tr, p => period i tr (if j = i then some t else p)
  | .addFd j _ t :: tr, p => period i tr (if j = i then some t else p)
  | _ :: tr, p => period i tr p

/-- In the history, the object has been waiting since `a`, which came after `pre`; `post` has happened
since; it waits for `t` seconds. -/
structure Waiting (i : Nat) (tr pre : List Act) (a : Act) (post : List Act) (t : Rat) : Prop where
  split : tr = pre ++ a :: post
  starts : restarts i a = true
  quiet : ∀ b ∈ post, touches i b = false
  time : period i (pre ++ [a]) none = some t

/-- The object has been added and since then neither stopped nor timed out. -/
def inForce (i : Nat) : List Act → Bool → Bool
  | [], p => p
  | .add j _ :: tr, p => inForce i tr (if j = i then true else p)
  | .addFd j _ _ :: tr, p => inForce i tr (if j = i then true else p)
  | .del j :: tr, p => inForce i tr (if j = i then false else p)
  | .clear j :: tr, p => inForce i tr (if j = i then false else p)
  | .fire j :: tr, p => inForce i tr (if j = i then false else p)
  | _ :: tr, p => inForce i tr p

/-- The events the object was last added for; none after it has been stopped, has timed out or has
reported an error. -/
def listening (i : Nat) : List Act → Nat → Nat
  | [], p => p
  | .addFd j ev _ :: tr, p => listening i tr (if j = i then ev else p)
  | .del j :: tr, p => listening i tr (if j = i then 0 else p)
  | .clear j :: tr, p => listening i tr (if j = i then 0 else p)
  | .fire j :: tr, p => listening i tr (if j = i then 0 else p)
  | .error j :: tr, p => listening i tr (if j = i then 0 else p)
  | _ :: tr, p => listening i tr p

/-- Double precision rounding, as far as it matters: it is monotone, and does not change whole numbers up to 2^53. -/
structure Rounding (rnd : Rat → Rat) : Prop where
  mono : ∀ x y, x ≤ y → rnd x ≤ rnd y
  whole : ∀ n : Int, n.natAbs ≤ 2 ^ 53 → rnd (n : Rat) = n

/-- Rounding towards zero. -/
def trunc (x : Rat) : Int := if 0 ≤ x then x.floor else x.ceil

end Spec.Timer
end Salticidae
