import Verif.Model.Dispatch
/-
Specification of message delivery, over the history of registrations and handled messages.
-/
namespace Salticidae
namespace Spec.Disp
open Salticidae.Disp

/-- The handler registered last for `op` in a history. -/
def lastReg (op : Nat) : List Event → Option Handler
  | [] => none
  | .reg o h :: es => match lastReg op es with
    | some h' => some h'
    | none => if o = op then some h else none
  | .msg _ :: es => lastReg op es

/-- The messages of a history, in order. -/
def msgs (es : List Event) : List Msg := es.filterMap (fun e => match e with | .msg m => some m | _ => none)

/-- `Delivered past es calls`: the messages of `es`, in order, have each been given exactly once to the
handler registered last for their opcode (in `past` or earlier in `es`), or to nobody if there is none,
and nothing else has been called. -/
inductive Delivered : List Event → List Event → List (Handler × Msg) → Prop
  | nil (past) : Delivered past [] []
  | reg {past op h es calls} (hd : Delivered (past ++ [.reg op h]) es calls) : Delivered past (.reg op h :: es) calls
  | drop {past m es calls} (hn : lastReg m.op past = none) (hd : Delivered (past ++ [.msg m]) es calls) :
      Delivered past (.msg m :: es) calls
  | call {past m h es calls} (hn : lastReg m.op past = some h) (hd : Delivered (past ++ [.msg m]) es calls) :
      Delivered past (.msg m :: es) ((h, m) :: calls)

end Spec.Disp
end Salticidae
