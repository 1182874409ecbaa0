import Verif.Model.Queue
/-
Model of ~MPMCQueue, include/salticidae/queue.h:177-184, run by thread i in a state of Model/Queue.

The calls of pop are those of Model/FreeList, step by step, with weak compare-exchanges that may fail for no reason (`ch = false`).  Touching a block that has been deleted, or deleting it again, is undefined
behaviour.  (`delete ptr` calls ~Block through the virtual ~Node, queue.h:21: it destroys the elements of the block.)
-/
namespace Salticidae
namespace QueueGone
open Queue

/-- Where the destructor is. -/
inductive Dpc where
  | call                 -- 178: about to call pop
  | pop                  -- 178: in pop
  | walk (p : Option Nat) -- 179: ptr
  | ended
  | ub
  deriving DecidableEq, Repr

/-- What the destructor works on: the free list, the blocks' next pointers (Block::next, queue.h:101), and the blocks it has deleted, the last one first. -/
structure D where
  fl : FreeList.St
  next : Nat → Option Nat
  head : Nat
  pc : Dpc
  gone : List Nat

/-- The node whose members the next step of a thread accesses, in pop and release_ref (queue.h:33-47, 58-84). -/
def touches : FreeList.Pc → Option Nat
  | .pop2 u | .pop3 u _ | .pop4 u | .rel u _ _ | .put2 u _ _ | .put4 u _ => some u
  | _ => none

/-- The destructor starts. -/
def start {α : Type} (s : St α) : D := ⟨s.fl, fun u => (s.blk u).next, s.qhead, .call, []⟩

/-- delete, queue.h:178, 182. -/
def D.delete (d : D) (u : Nat) (p : Dpc) : D := if u ∈ d.gone then { d with pc := .ub } else { d with gone := u :: d.gone, pc := p }

/-- One step of the destructor, in thread i. -/
def step (i : Nat) (ch : Bool) (d : D) : D :=
  match d.pc with
  | .call => { d with fl := FreeList.call d.fl i .pop, pc := .pop }
  | .pop => match d.fl.pc i with
    | .ret (.popped u) => d.delete u .call
    | .ret _ => { d with pc := .walk (some d.head) }
    | f => if (touches f).any (d.gone.contains ·) then { d with pc := .ub } else
      match FreeList.micro d.fl i ch with
      | some fl => { d with fl := fl }
      | none => d
  | .walk none => { d with pc := .ended }
  | .walk (some u) => if u ∈ d.gone then { d with pc := .ub } else d.delete u (.walk (d.next u))
  | .ended => d
  | .ub => d

/-- A run of the destructor; the list says which compare-exchanges may succeed. -/
def run (i : Nat) (d : D) (chs : List Bool) : D := chs.foldl (fun d ch => step i ch d) d

end QueueGone
end Salticidae
