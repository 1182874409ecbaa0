/-
A memory in which atomic accesses have the orders of the C++ memory model (relaxed, acquire, release, acq_rel), as an operational machine
with views: the promise-free fragment of the "promising" semantics, i.e. RC11 without seq_cst.

Every location has the list of the values written to it, its modification order, told by timestamps.  A thread has a view: for each location, how far in
the modification order it has got.  A load may read any value that is not older than the view.  A store takes any free place after the view, and so need not be the last.
A read-modify-write writes right after the value it reads.  A release store carries the view of its thread, a read-modify-write also
carries on what the value it read carried (release sequence); an acquire load takes over what the value carries.

Simplified: load buffering (a load that reads a value which is written later in the execution) is not possible, as in RC11; no seq_cst and no fences (the code
of queue.h and event.h has none).
-/
namespace Salticidae
namespace Weak

variable {L : Type} [DecidableEq L]

/-- How far a thread has got in the modification order of each location. -/
abbrev View (L : Type) := List (L × Nat)

namespace View

def get : View L → L → Nat
  | [], _ => 0
  | (k, t) :: v, l => if k = l then max t (get v l) else get v l

/-- The view now includes timestamp `t` of `l`. -/
def raise : View L → L → Nat → View L
  | [], l, t => [(l, t)]
  | (k, s) :: v, l, t => if k = l then (k, max s t) :: v else (k, s) :: raise v l t

def join (a b : View L) : View L := b.foldl (fun v p => raise v p.1 p.2) a

end View

/-- A value in the modification order of a location. -/
structure Msg (L : Type) where
  loc : L
  ts : Nat
  val : Nat
  view : View L
  deriving DecidableEq, Repr

/-- Everything that has been written; each location also has its initial value, at timestamp 0. -/
abbrev Mem (L : Type) := List (Msg L)

inductive Order where
  | rlx | acq | rel | acqRel
  deriving DecidableEq, Repr

def Order.acquires : Order → Bool
  | .acq | .acqRel => true
  | _ => false

def Order.releases : Order → Bool
  | .rel | .acqRel => true
  | _ => false

/-- The value at timestamp `t`. -/
def look (ini : L → Nat) (m : Mem L) (l : L) (t : Nat) : Option (Msg L) :=
  match m.find? (fun x => x.loc = l ∧ x.ts = t) with
  | some x => some x
  | none => if t = 0 then some ⟨l, 0, ini l, []⟩ else none

/-- The last timestamp of a location. -/
def last : Mem L → L → Nat
  | [], _ => 0
  | x :: m, l => if x.loc = l then max x.ts (last m l) else last m l

/-- A load that reads at timestamp `t`. -/
def load (ini : L → Nat) (m : Mem L) (v : View L) (o : Order) (l : L) (t : Nat) : Option (Nat × View L) :=
  match look ini m l t with
  | some x =>
    if v.get l ≤ t then
      let v := v.raise l t
      some (x.val, if o.acquires then v.join x.view else v)
    else none
  | none => none

/-- A store at timestamp `t`. -/
def store (ini : L → Nat) (m : Mem L) (v : View L) (o : Order) (l : L) (t x : Nat) : Option (Mem L × View L) :=
  if v.get l < t ∧ look ini m l t = none then
    let v := v.raise l t
    some (⟨l, t, x, if o.releases then v else [(l, t)]⟩ :: m, v)
  else none

/-- A read-modify-write that reads at timestamp `t`. -/
def rmw (ini : L → Nat) (m : Mem L) (v : View L) (o : Order) (l : L) (t : Nat) (f : Nat → Nat) : Option (Nat × Mem L × View L) :=
  match look ini m l t with
  | some x =>
    if v.get l ≤ t ∧ look ini m l (t + 1) = none then
      let v := v.raise l (t + 1)
      let v := if o.acquires then v.join x.view else v
      some (x.val, ⟨l, t + 1, f x.val, (if o.releases then v else [(l, t + 1)]).join x.view⟩ :: m, v)
    else none
  | none => none

/-- A store that is not atomic; the flag: another thread's store is not known to have happened before (a data race).
Loads that are not atomic leave no trace, so that a race of such a load with a later store is not noticed. -/
def plainStore (m : Mem L) (v : View L) (l : L) (x : Nat) : Mem L × View L × Bool :=
  let t := last m l + 1
  (⟨l, t, x, []⟩ :: m, v.raise l t, decide (v.get l < last m l))

/-- A load that is not atomic. -/
def plainLoad (ini : L → Nat) (m : Mem L) (v : View L) (l : L) : Nat × Bool :=
  (match look ini m l (last m l) with
   | some x => x.val
   | none => 0, decide (v.get l < last m l))

end Weak
end Salticidae
