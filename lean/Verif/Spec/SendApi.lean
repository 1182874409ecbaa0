import Verif.Model.SendApi
/-!
What a user may conclude from the answer to a call that sends a message.
-/
namespace Salticidae
namespace Spec.SendApi
open Salticidae.SendApi

/-- The connection a map gives for a key: the first entry. -/
def entry : List (Nat × Nat) → Nat → Option Nat
  | [], _ => none
  | (k, c) :: l, x => if k = x then some c else entry l x

/-- The connections that a message is for, or `none` if a peer or client named in the call does not exist. -/
def targets (s : St) : Dest → Option (List Nat)
  | .conn c => some [c]
  | .peer p => (entry s.peers p).map (fun c => [c])
  | .client a => (entry s.clients a).map (fun c => [c])
  | .peers ps => ps.mapM (entry s.peers)

/-- The error that says that a peer or client does not exist. -/
def missing : Dest → Err
  | .client _ => .clientNotExist
  | _ => .peerNotExist

/-- From `s` to `t` the message was put, once for each time it is named, at the end of the send buffers of the connections `cs`, and
nothing else was put or taken. -/
def Delivered (s t : St) (cs : List Nat) (m : Seg) : Prop := ∀ c, t.buf c = s.buf c ++ List.replicate (cs.count c) m

/-- The answer `r` of a call that sends `m` to `d` is true. -/
def Truthful (s t : St) (d : Dest) (m : Seg) (r : Answer) : Prop :=
  match targets s d with
  | none => r = .thrown (missing d) ∧ t.buf = s.buf
  | some cs => (r = .ret true ∧ Delivered s t cs m) ∨ (r = .ret false ∧ t.buf = s.buf)

/-- The same for C, where exceptions become `false`. -/
def CTruthful (s t : St) (d : Dest) (m : Seg) (r : Answer) : Prop :=
  match targets s d with
  | none => r = .ret false ∧ t.buf = s.buf
  | some cs => (r = .ret true ∧ Delivered s t cs m) ∨ (r = .ret false ∧ t.buf = s.buf)

/-- In this step a deferred call ran and did not put its message into the buffers of all its targets: the error
that is due, and the id of the call. -/
def failed (g : Cfg) (x : St × Act) : Option (Err × Nat) :=
  match x.2, x.1.disp, step g x.1 x.2 with
  | .dispatch _, k :: _, some (t, _) =>
    match targets x.1 k.dest with
    | none => some (missing k.dest, k.id)
    | some cs => if cs.all (fun c => t.buf c == x.1.buf c ++ List.replicate (cs.count c) k.msg) then none else some (.connNotReady, k.id)
  | _, _, _ => none

/-- In this step the user made a deferred call. -/
def made (x : St × Act) : Option (Dest × Seg) :=
  match x.2 with
  | .defer d m => some (d, m)
  | _ => none

/-- In this step a deferred call ran. -/
def ran (x : St × Act) : Option (Dest × Seg) :=
  match x.2 with
  | .dispatch _ => x.1.disp.head?.map (fun k => (k.dest, k.msg))
  | _ => none

end Spec.SendApi
end Salticidae
