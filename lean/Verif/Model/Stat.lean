import Verif.Model.Net
/-
Model of the message statistics, include/salticidae/network.h:86-113 (the counters of a connection and clear_msgstat), 220-223 (counting what is
received) and 730-741 (counting what is sent), over the whole system of Model/Net.

A counter is an atomic of type size_t; `nsent++`, `nsentb += ...` and each of the four stores of clear_msgstat are steps of their own, in turn with
those of other threads.

Simplified: counting a received message and the call of its handler are one step.
-/
namespace Salticidae
namespace Stat
open Net (Cfg)

/-- The counters, network.h:87-90. -/
structure Cnt where
  nsent : BitVec 64
  nsentb : BitVec 64
  nrecv : BitVec 64
  nrecvb : BitVec 64
  deriving DecidableEq, Repr

/-- The constructor, network.h:96. -/
def Cnt.zero : Cnt := ⟨0, 0, 0, 0⟩

/-- The counters by name. -/
inductive Field | nsent | nsentb | nrecv | nrecvb
  deriving DecidableEq, Repr

/-- A call of `_send_msg` that goes on: end, message, how many of the two counters it has increased. -/
structure Call {V : Type} (g : Cfg V) where
  i : Nat
  op : BitVec (8 * g.ow)
  v : V
  pc : Nat

structure St {V : Type} (g : Cfg V) where
  net : Net.St g
  cnt : Nat → Cnt                                       -- of each end
  calls : List (Call g)
  sends : List (Nat × BitVec (8 * g.ow) × V × Bool)     -- ghost: calls of send_msg that have returned, and their results

def init {V : Type} (g : Cfg V) : St g := ⟨Net.init g, fun _ => .zero, [], []⟩

/-- `msg.get_length()` of the message made for sending, msg.h:62-67 and 178-184. -/
def length {V : Type} (g : Cfg V) (op : BitVec (8 * g.ow)) (v : V) : Nat :=
  match Msg.ofTyped g.e g.H op (g.enc op v) g.magic with
  | some m => m.length.toNat
  | none => 0

/-- One of the stores of clear_msgstat, network.h:108-111. -/
def clearOne (c : Cnt) : Field → Cnt
  | .nsent => { c with nsent := 0 }
  | .nsentb => { c with nsentb := 0 }
  | .nrecv => { c with nrecv := 0 }
  | .nrecvb => { c with nrecvb := 0 }

/-- network.h:220-223, for a message given to a handler. -/
def countRecv (f : Nat → Cnt) (m : Disp.Msg) : Nat → Cnt :=
  Net.upd f m.conn { f m.conn with
    nrecv := (f m.conn).nrecv + 1
    nrecvb := (f m.conn).nrecvb + BitVec.ofNat 64 (Net.uncode m.tag).length }

inductive Act {V : Type} (g : Cfg V) where
  | call (i : Nat) (op : BitVec (8 * g.ow)) (v : V)   -- send_msg is called
  | count (k : Nat)                                   -- call k increases its next counter
  | write (k : Nat) (ok : Bool)                       -- call k writes the message and returns `ok`
  | store (i : Nat) (f : Field)                       -- a store of clear_msgstat
  | net (a : Net.Act g)                               -- everything else

/-- One step; `none` when it cannot happen. -/
def step {V : Type} (g : Cfg V) (s : St g) : Act g → Option (St g)
  | .call i op v => some { s with calls := s.calls ++ [⟨i, op, v, 0⟩] }
  | .count k =>
    match s.calls[k]? with
    | none => none
    | some c =>
      if c.pc = 0 then some { s with
        calls := s.calls.set k { c with pc := 1 }
        cnt := Net.upd s.cnt c.i { s.cnt c.i with nsent := (s.cnt c.i).nsent + 1 } }
      else if c.pc = 1 then some { s with
        calls := s.calls.set k { c with pc := 2 }
        cnt := Net.upd s.cnt c.i { s.cnt c.i with nsentb := (s.cnt c.i).nsentb + BitVec.ofNat 64 (length g c.op c.v) } }
      else none
  | .write k ok =>
    match s.calls[k]? with
    | none => none
    | some c =>
      if c.pc = 2 then (Net.step g s.net (.send c.i c.op c.v ok)).map fun t =>
        { s with net := t, calls := s.calls.eraseIdx k, sends := s.sends ++ [(c.i, c.op, c.v, ok)] }
      else none
  | .store i f => some { s with cnt := Net.upd s.cnt i (clearOne (s.cnt i) f) }
  | .net (.send _ _ _ _) => none
  | .net (.disp n a) =>
    (Net.step g s.net (.disp n a)).map fun t =>
      { s with net := t, cnt := ((t.disp n).calls.drop (s.net.disp n).calls.length).foldl (fun f x => countRecv f x.2) s.cnt }
  | .net a => (Net.step g s.net a).map fun t => { s with net := t }

def run {V : Type} (g : Cfg V) : St g → List (Act g) → Option (St g)
  | s, [] => some s
  | s, a :: as => (step g s a).bind (fun s => run g s as)

/-- clear_msgstat, network.h:107-112, not interrupted. -/
def clear {V : Type} {g : Cfg V} (i : Nat) : List (Act g) := [.store i .nsent, .store i .nrecv, .store i .nsentb, .store i .nrecvb]

end Stat
end Salticidae
