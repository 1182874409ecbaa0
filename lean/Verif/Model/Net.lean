import Verif.Model.ConnView
import Verif.Model.Dispatch
/-
A whole system: any number of nodes, each a MsgNetwork, and any number of TCP connections between them.
Put together from the models of the parts: the socket side of a connection (Model/ConnIO, one for each end
of a connection), TCP in between, the queue of incoming messages of a node and the loop that hands them to
handlers (Model/Dispatch), and the sending and parsing of typed messages (Model/Msg;
include/salticidae/network.h:232-250 `reg_handler`, 722-735 `send_msg`).

Ends 2k and 2k+1 belong to the same connection.  A message type is given by its opcode, how it is
serialised (`enc`) and how its constructor parses a payload (`dec`; `none`: it throws).

Simplified: connections exist from the beginning (C47-C50 are about their life); the hosts have one byte
order and one hash function; a worker's callback is one step of ConnIO, and the messages that it enqueues enter the
queue one after the other after it (`pend`), each enqueue taking its steps in turn with those of other threads; whether
an attempt to enqueue is refused is arbitrary (`q`).  If a callback brings its process down, only that end stops.
A message in the queue is represented by opcode, end and payload, the last as a number (`code`).
-/
namespace Salticidae
namespace Net

/-- A sequence of bytes as a number. -/
def code : List Byte → Nat
  | [] => 1
  | b :: bs => code bs * 256 + b.toNat

/-- The system; `V`: the typed messages. -/
structure Cfg (V : Type) where
  e : Endian
  ow : Nat
  H : List Byte → List Byte
  magic : BitVec 32
  m0 : Msg ow                              -- the message object of a fresh connection
  maxMsg : Nat → Nat                       -- of each end
  chunk : Nat → Nat
  maxSegs : Nat → Nat
  q : Nat → Nat → Bool                     -- of each end: is the i-th attempt to enqueue accepted?
  node : Nat → Nat                         -- the node an end belongs to
  burst : Nat → Nat                        -- of each node
  handlers : Nat → List (Nat × Disp.Handler)   -- of each node: its calls of reg_handler, in order
  beh : Nat → Disp.Handler → Disp.Msg → Disp.Beh
  enc : BitVec (8 * ow) → V → DataStream
  dec : Nat → DataStream → Option V

/-- The configuration of one end. -/
def Cfg.io {V : Type} (g : Cfg V) (i : Nat) : ConnIO.Cfg := ⟨g.e, g.ow, g.H, g.maxMsg i, g.chunk i, g.maxSegs i⟩

structure St {V : Type} (g : Cfg V) where
  conn : Nat → ConnIO.St g.ow
  disp : Nat → Disp.St                     -- of each node
  pend : Nat → List Disp.Msg               -- messages an end has parsed and will enqueue
  cur : Nat → Option Nat                   -- the end's last call of enqueue
  log : Nat → List (BitVec (8 * g.ow) × V) -- ghost: the messages that send_msg has accepted at an end

/-- The other end. -/
def mate (i : Nat) : Nat := if i % 2 = 0 then i + 1 else i - 1

/-- A node after its calls of reg_handler, before anything is received. -/
def booted (l : List (Nat × Disp.Handler)) : Disp.St :=
  { Disp.init with
    handlers := l.foldl (fun t x => Disp.setHandler t x.1 x.2) []
    hist := l.map fun x => .reg x.1 x.2 }

def init {V : Type} (g : Cfg V) : St g where
  conn := fun _ => ConnIO.init g.m0
  disp := fun n => booted (g.handlers n)
  pend := fun _ => []
  cur := fun _ => none
  log := fun _ => []

/-- The bytes that `send_msg` writes for a typed message, network.h:722-735, msg.h:62-67, 229-239; `none`: undefined behaviour. -/
def wire {V : Type} (g : Cfg V) (op : BitVec (8 * g.ow)) (v : V) : Option (List Byte) :=
  (Msg.ofTyped g.e g.H op (g.enc op v) g.magic).map fun m => m.serialize g.e

/-- A received message, as it is enqueued: network.h:683-688. -/
def item {ow : Nat} (i : Nat) (m : Msg ow) : Disp.Msg := ⟨m.opcode.toNat, i, code m.payload⟩

inductive Act {V : Type} (g : Cfg V) where
  | send (i : Nat) (op : BitVec (8 * g.ow)) (v : V) (ok : Bool)   -- send_msg; `ok`: its result
  | io (i : Nat) (ev : ConnIO.Ev)                                 -- a callback of the worker
  | net (i k : Nat)                                               -- TCP brings up to k bytes to end i
  | close (i : Nat)                                               -- TCP tells end i that the other end has closed
  | enq (i : Nat)                                                 -- the worker enqueues the next message
  | disp (n : Nat) (a : Disp.Act)                                 -- the queue and the loop of a node

/-- Events that the worker of the end brings about. -/
def byWorker : ConnIO.Ev → Bool
  | .arrive _ => false
  | .peerClose => false
  | .write _ _ => false
  | _ => true

/-- Steps of a running node that are not the beginning of an enqueue. -/
def byLoop : Disp.Act → Bool
  | .prod _ => true
  | .fire => true
  | .cb => true
  | .handle => true
  | .idle => true
  | _ => false

def upd {α : Type} (f : Nat → α) (i : Nat) (v : α) : Nat → α := fun j => if j = i then v else f j

/-- The call of enqueue is over. -/
def returned (d : Disp.St) : Option Nat → Bool
  | none => true
  | some k => match d.ev.prods[k]? with
    | some (.done _) => true
    | _ => false

/-- One step; `none` when it cannot happen. -/
def step {V : Type} (g : Cfg V) (s : St g) : Act g → Option (St g)
  | .send i op v ok =>
    if (s.conn i).crashed then none
    else match wire g op v with
      | some bs => some { s with
          conn := upd s.conn i (ConnIO.step (g.io i) (g.q i) (s.conn i) (.write bs ok))
          log := if ok then upd s.log i (s.log i ++ [(op, v)]) else s.log }
      | none => none
  | .io i ev =>
    if byWorker ev then
      let c := ConnIO.step (g.io i) (g.q i) (s.conn i) ev
      some { s with
        conn := upd s.conn i c
        pend := upd s.pend i (s.pend i ++ (c.delivered.drop (s.conn i).delivered.length).map (item i)) }
    else none
  | .net i k =>
    let bs := ((s.conn (mate i)).sent.drop (s.conn i).arrived.length).take k
    some { s with conn := upd s.conn i (ConnIO.step (g.io i) (g.q i) (s.conn i) (.arrive bs)) }
  | .close i =>
    if (s.conn (mate i)).closed = true ∧ (s.conn i).arrived = (s.conn (mate i)).sent then
      some { s with conn := upd s.conn i (ConnIO.step (g.io i) (g.q i) (s.conn i) .peerClose) }
    else none
  | .enq i =>
    match s.pend i with
    | [] => none
    | m :: ms =>
      if returned (s.disp (g.node i)) (s.cur i) then
        (Disp.step (g.beh (g.node i)) (g.burst (g.node i)) (s.disp (g.node i)) (.recv m)).map fun d =>
          { s with
            disp := upd s.disp (g.node i) d
            pend := upd s.pend i ms
            cur := upd s.cur i (some (s.disp (g.node i)).ev.prods.length) }
      else none
  | .disp n a =>
    if byLoop a then
      (Disp.step (g.beh n) (g.burst n) (s.disp n) a).map fun d => { s with disp := upd s.disp n d }
    else none

def run {V : Type} (g : Cfg V) : St g → List (Act g) → Option (St g)
  | s, [] => some s
  | s, a :: as => (step g s a).bind (fun s => run g s as)

/-- Bytes back from their number. -/
def uncode (n : Nat) : List Byte :=
  if n ≤ 1 then [] else BitVec.ofNat 8 (n % 256) :: uncode (n / 256)
  termination_by n
  decreasing_by omega

/-- What has been handed to handlers of messages from end `i`, in order: the handler, the opcode, and what the message type makes of the payload, network.h:240-243. -/
def handled {V : Type} (g : Cfg V) (s : St g) (i : Nat) : List (Disp.Handler × Nat × Option V) :=
  ((s.disp (g.node i)).calls.filter (fun x => x.2.conn = i)).map
    fun x => (x.1, x.2.op, g.dec x.2.op (DataStream.ofBytes (uncode x.2.tag)))

/-- Everything that was sent to end `i` has come through: nothing is left at the other end, on the way, in the socket or the queue, and nothing is going on at end `i` or its node. -/
def drained {V : Type} (g : Cfg V) (s : St g) (i : Nat) : Prop :=
  (s.conn (mate i)).sendq = [] ∧ (s.conn i).arrived = (s.conn (mate i)).sent ∧ (s.conn i).sock = [] ∧
  (s.conn i).readOn = true ∧ (s.conn i).poll = false ∧ (s.conn i).killed = false ∧
  s.pend i = [] ∧ Disp.atRest (s.disp (g.node i)) = true

end Net
end Salticidae
