import Verif.Model.Queue
/-!
What a concurrent queue is: each operation takes effect at one moment between its call and its return, and what it returns is right for the
(sequential) queue at that moment.
-/
namespace Salticidae
namespace Spec.Queue
open Salticidae.Queue

variable {α : Type} [DecidableEq α]

/-- What a thread is doing. -/
inductive Doing (α : Type) where
  | nothing
  | called (c : Call α)  -- in an operation that has not taken effect
  | done (r : Ret α)     -- in one that has, and has to return r

/-- A queue, and the operations in progress. -/
structure Q (α : Type) where
  q : List α
  doing : Nat → Doing α

def empty : Q α := ⟨[], fun _ => .nothing⟩

def Q.set (s : Q α) (i : Nat) (d : Doing α) : Q α := { s with doing := fun j => if j = i then d else s.doing j }

/-- An event happens; `none` if it must not. -/
def after (s : Q α) : Ev α → Option (Q α)
  | .call i c =>
    match s.doing i with
    | .nothing => some (s.set i (.called c))
    | _ => none
  | .enq i e =>
    match s.doing i with
    | .called (.enq e' _) => if e = e' then some { s.set i (.done .yes) with q := s.q ++ [e] } else none
    | _ => none
  | .refuse i =>
    match s.doing i with
    | .called (.enq _ false) => some (s.set i (.done .no))
    | _ => none
  | .take i =>
    match s.doing i, s.q with
    | .called .deq, x :: q => some { s.set i (.done (.val (some x))) with q := q }
    | .called .deqM, x :: q => some { s.set i (.done (.val (some x))) with q := q }
    | _, _ => none
  | .empty i =>
    match s.doing i, s.q with
    | .called .deq, [] => some (s.set i (.done .no))
    | .called .deqM, [] => some (s.set i (.done .no))
    | _, _ => none
  | .rewind i e =>
    match s.doing i with
    | .called (.rewind e') => if e = e' then some { s.set i (.done .yes) with q := e :: s.q } else none
    | _ => none
  | .ret i r =>
    match s.doing i with
    | .done r' => if r = r' then some (s.set i .nothing) else none
    | .called .add => if r = .none then some (s.set i .nothing) else none
    | _ => none

/-- A history; `none` if something in it must not happen. -/
def replay (s : Q α) : List (Ev α) → Option (Q α)
  | [] => some s
  | e :: l => (after s e).bind (fun s => replay s l)

theorem replay_append (s : Q α) (l m : List (Ev α)) : replay s (l ++ m) = (replay s l).bind (fun s => replay s m) := by
  induction l generalizing s with
  | nil => rfl
  | cons e l ih =>
    simp only [List.cons_append, replay]
    cases after s e with
    | none => rfl
    | some s' => exact ih s'

/-! What can be read off a history. -/

/-- Elements enqueued, in the order in which their enqueues took effect. -/
def enqueued (l : List (Ev α)) : List α := l.filterMap fun | .enq _ e => some e | _ => none
/-- Elements enqueued by thread i. -/
def enqueuedBy (i : Nat) (l : List (Ev α)) : List α := l.filterMap fun | .enq j e => if j = i then some e else none | _ => none
/-- Elements put back. -/
def rewound (l : List (Ev α)) : List α := l.filterMap fun | .rewind _ e => some e | _ => none
/-- Elements returned by dequeue operations, in order. -/
def dequeued (l : List (Ev α)) : List α := l.filterMap fun | .ret _ (.val (some x)) => some x | _ => none

/-- Calls and returns of thread i. -/
def ofThread (i : Nat) (l : List (Ev α)) : List (Ev α) := l.filter fun | .call j _ => j = i | .ret j _ => j = i | _ => false

/-- Elements of the enqueues of a thread that have returned true, from its calls and returns. -/
def acceptedIn : List (Ev α) → List α
  | .call _ (.enq e _) :: .ret _ .yes :: l => e :: acceptedIn l
  | _ :: l => acceptedIn l
  | [] => []
def accepted (i : Nat) (l : List (Ev α)) : List α := acceptedIn (ofThread i l)

/-- The thread of an event. -/
def threadOf : Ev α → Nat
  | .call i _ | .ret i _ | .enq i _ | .refuse i | .take i | .empty i | .rewind i _ => i

/-- No operation is running at the end of a history: each thread's last call has returned. -/
def Quiet (l : List (Ev α)) : Prop := ∀ i c, (ofThread i l).getLast? ≠ some (.call i c)

/-- What the callers see: calls and returns. -/
def observed (l : List (Ev α)) : List (Ev α) := l.filter fun | .call _ _ => true | .ret _ _ => true | _ => false

/-- The calls and returns are those of a queue: moments at which the operations take effect can be put between them. -/
def Linearizable (l : List (Ev α)) : Prop := ∃ l', observed l' = observed l ∧ ∃ q, replay empty l' = some q

/-- Is it a round of set_capacity? -/
def isAdd {α : Type} : Ev α → Bool
  | .call _ .add => true
  | _ => false
/-- Blocks given to the queue by set_capacity. -/
def blocks (l : List (Ev α)) : Nat := l.countP isAdd
/-- set_capacity(c) has been called once, before everything else. -/
def Configured (B c : Nat) (l : List (Ev α)) : Prop :=
  ∃ l0 l1, l = l0 ++ l1 ∧ Quiet l0 ∧ (∀ i x, .call i x ∈ l0 → x = .add) ∧ blocks l0 = rounds B c ∧ blocks l1 = 0

/-- Number of elements accepted by enqueues of threads 0, …, n-1. -/
def acceptedCount (n : Nat) (l : List (Ev α)) : Nat := ((List.range n).flatMap (fun j => accepted j l)).length

end Spec.Queue

/-! Conditions on the use of a queue. -/
namespace Queue

variable {α : Type}

/-- Who may dequeue and rewind: one thread, with the operations of MPSCQueue, or everyone, with that of MPMCQueue. -/
inductive Mode where
  | single (c : Nat)
  | multi
  deriving DecidableEq

def Act.allowed (m : Mode) : Act α → Prop
  | .start i .deq => m = .single i
  | .start i (.rewind _) => m = .single i
  | .start _ .deqM => m = .multi
  | _ => True

instance (m : Mode) (a : Act α) : Decidable (a.allowed m) := by
  unfold Act.allowed; split <;> infer_instance

/-- A used-up block is not given back to the free list while the thread that made or linked it in an unbounded enqueue is still about to clear its mark (queue.h:148). -/
def timelyAt (s : St α) : Act α → Prop
  | .go i _ => ∀ u, s.fl.pc i = .push u → ∀ j e t, s.pc j ≠ .e13 e true t u
  | .start _ _ => True

/-- When a consumer of MPMCQueue has got its reference to the block it read from the queue's head, that block is (again, or still) the head. -/
def freshAt (s : St α) : Act α → Prop
  | .go i ch => ∀ u n, s.fl.pc i = .ref2 u n → s.pc i = .m2 u → ch = true → (s.fl.node u).refcnt = n → s.qhead = u
  | .start _ _ => True

/-- Thread j is in no operation. -/
def Idle (s : St α) (j : Nat) : Prop := ∃ x, s.pc j = .idle x

/-- No operation is running when one starts. -/
def turnAt (s : St α) : Act α → Prop
  | .start _ _ => ∀ j, Idle s j
  | .go _ _ => True

/-- Operations that can make a block of their own: unbounded enqueues, and rewind. -/
def Act.grows : Act α → Bool
  | .start _ (.enq _ u) => u
  | .start _ (.rewind _) => true
  | _ => false

/-- Operations run one after the other (in whatever threads). -/
def InTurn (B : Nat) (acts : List (Act α)) : Prop := ∀ p ∈ trace B (init α) acts, turnAt p.1 p.2

def Timely (B : Nat) (acts : List (Act α)) : Prop := ∀ p ∈ trace B (init α) acts, timelyAt p.1 p.2
def Fresh (B : Nat) (acts : List (Act α)) : Prop := ∀ p ∈ trace B (init α) acts, freshAt p.1 p.2

end Queue
end Salticidae
