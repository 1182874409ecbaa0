import Verif.Model.QueueGone
/-
Model of the elements of a queue as objects that own something (queue.h:95-102, 157, 227, 261, 285): what the slots of the blocks own, along an execution of Model/Queue.

* `new (&(t->elem[tt])) T(std::forward<U>(e))` (157, 285) makes a copy of e in the slot (enqueue and try_enqueue pass e on as an lvalue, 193, 198, so that the caller's object stays as it is).  It does not
  destroy what was in the slot: what the slot owned is lost.
* `e = std::move(h->elem[hh])` (227, 261) moves what the slot owns to the caller's object.
* A block that is made has slots that own nothing (T()), and deleting it (178, 182) destroys its slots.

Simplified: an element that has been moved from owns nothing (so it is with the types the library uses: messages, handles of connections, byte arrays, pointers).
-/
namespace Salticidae
namespace QueueOwn
open Queue

structure O (α : Type) where
  own : Nat → Nat → Option α  -- what a slot of a block owns
  lost : List α               -- what has been overwritten
  hollow : Bool               -- a slot that owned nothing has been moved from

variable {α : Type}

def O.init : O α := ⟨fun _ _ => none, [], false⟩

/-- Placement new. -/
def O.put (o : O α) (b k : Nat) (e : α) : O α := { o with own := upd2 o.own b k (some e), lost := o.lost ++ (o.own b k).toList }

/-- Move assignment from the slot. -/
def O.take (o : O α) (b k : Nat) : O α := { o with own := upd2 o.own b k none, hollow := o.hollow || (o.own b k).isNone }

/-- What a step of thread i does to the slots (Queue.step has the places). -/
def O.step (s : St α) (o : O α) : Act α → O α
  | .start _ _ => o
  | .go i _ => match s.fl.pc i with
    | .ret _ => match s.pc i with
      | .e16 e _ t tt => o.put t tt e
      | .w10 e h hh => o.put h hh e
      | .d9 h hh => o.take h hh
      | .m8 h hh => o.take h hh
      | _ => o
    | _ => o

def run (B : Nat) : St α → O α → List (Act α) → O α
  | _, o, [] => o
  | s, o, a :: as => match Queue.step B s a with
    | some s' => run B s' (o.step s a) as
    | none => o

/-- What is destroyed with blocks of B slots. -/
def O.destroyed (o : O α) (B : Nat) (gone : List Nat) : List α := gone.flatMap (fun b => (List.range B).filterMap (o.own b))

end QueueOwn
end Salticidae
