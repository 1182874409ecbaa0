import Verif.Model.Bits
/-
Model of the messages sent to one known peer across its reconnections:
  include/salticidae/network.h:1337-1340 (`_send_msg(msg, pid)`) and 730-740 (`_send_msg(msg, conn)`),
  include/salticidae/conn.h:145-147 (`write`),
  include/salticidae/network.h:908-937 (`finish_handshake`, the part that moves the send buffer),
  src/conn.cpp:61-103 (`_send_data`).

A segment of a send buffer is a list of bytes.  The connections of the peer are numbered; connection 0 is the dummy of add_peer
(network.h:1171-1180), terminated from the start.  `send_msg(pid)` reads `p->conn` and then writes to the connection it has read: the
lock both hold (known_peers_lock) is taken in shared mode by `send_msg` and by the callers of `finish_handshake`
(network.h:1003, 1085), so the steps of the two interleave; so do those of the worker of each connection.

Simplified: the send queue is a list (C34); the handshake is a single step, `begin`, which gives the segments the library
has written to the new connection when it arrives at line 923 (handshake messages and the heartbeat of line 920); reading the shared pointer
`p->conn` while it is assigned is atomic.
-/
namespace Salticidae
namespace PeerBuf

abbrev Seg := List Byte

structure Conn where
  queue : List Seg       -- send_buffer
  dead : Bool            -- terminated: its worker does not send any more
  cut : Bool             -- ghost: the first segment of the queue is the rest of one that was sent in part
  wire : List Byte       -- ghost: bytes taken by the kernel
  got : List Seg         -- ghost: segments accepted by write(), in order
  deriving DecidableEq, Repr

structure St where
  conns : Nat → Conn
  next : Nat             -- number of connections so far
  cur : Nat              -- p->conn
  chosen : Option Nat    -- p->chosen_conn, while finish_handshake runs
  drained : Bool         -- the loop of finish_handshake has ended
  calls : List (Seg × Nat) -- calls of send_msg that have read p->conn and not yet written
  lib : List Seg         -- ghost: messages of the library
  accepted : List Seg    -- ghost: messages for which send_msg returned true
  waiting : List Seg     -- ghost: those of them accepted since the current connection was lost

def upd (f : Nat → Conn) (i : Nat) (c : Conn) : Nat → Conn := fun j => if j = i then c else f j

/-- add_peer, network.h:1171-1180. -/
def init : St where
  conns := fun _ => ⟨[], true, false, [], []⟩
  next := 1
  cur := 0
  chosen := none
  drained := false
  calls := []
  lib := []
  accepted := []
  waiting := []

inductive Act where
  | look (m : Seg)             -- send_msg(m, pid) reads p->conn
  | put (i : Nat) (ok : Bool)  -- the i-th call writes; `ok`: the buffer has room
  | kernel (c n : Nat)         -- send() takes n bytes of connection c
  | die (c : Nat)              -- connection c is terminated
  | begin (hello : List Seg)   -- a handshake is finished
  | drain (ok : Bool)          -- an iteration of the loop of finish_handshake
  | empty                      -- the loop ends
  | swap                       -- p->conn = p->chosen_conn
  deriving DecidableEq, Repr

/-- conn.h:145-147. -/
def Conn.write (c : Conn) (m : Seg) : Conn := { c with queue := c.queue ++ [m], got := c.got ++ [m] }

/-- `_send_data`, conn.cpp:68-97, for one segment: move_pop, send, and rewind of the leftover (nothing sent: the whole segment is put back). -/
def Conn.send (c : Conn) (n : Nat) : Conn :=
  match c.queue with
  | [] => c
  | s :: q =>
    if n < s.length then { c with queue := s.drop n :: q, wire := c.wire ++ s.take n, cut := c.cut || decide (0 < n) }
    else { c with queue := q, wire := c.wire ++ s, cut := false }

def step (s : St) : Act → Option St
  | .look m => if m = [] then none else some { s with calls := s.calls ++ [(m, s.cur)] }
  | .put i ok =>
    match s.calls[i]? with
    | none => none
    | some (m, c) =>
      let s := { s with calls := s.calls.eraseIdx i }
      if ok then
        some { s with
          conns := upd s.conns c ((s.conns c).write m)
          accepted := s.accepted ++ [m]
          waiting := if (s.conns s.cur).dead then s.waiting ++ [m] else s.waiting }
      else some s
  | .kernel c n => if (s.conns c).dead then none else some { s with conns := upd s.conns c ((s.conns c).send n) }
  | .die c => some { s with conns := upd s.conns c { s.conns c with dead := true } }
  | .begin hello =>
    if (s.conns s.cur).dead && s.chosen == none && hello.all (fun m => !m.isEmpty) then
      some { s with
        conns := upd s.conns s.next ⟨hello, false, false, [], hello⟩
        next := s.next + 1
        chosen := some s.next
        drained := false
        lib := s.lib ++ hello }
    else none
  | .drain ok => -- network.h:931-933; the result of write() is ignored
    match s.chosen with
    | none => none
    | some n =>
      match (s.conns s.cur).queue with
      | [] => none
      | m :: q =>
        if s.drained then none
        else
          let s := { s with conns := upd s.conns s.cur { s.conns s.cur with queue := q, cut := false } }
          some (if ok then { s with conns := upd s.conns n ((s.conns n).write m) } else s)
  | .empty => -- network.h:932
    if s.chosen == none || s.drained || !(s.conns s.cur).queue.isEmpty then none else some { s with drained := true }
  | .swap => -- network.h:937
    match s.chosen with
    | none => none
    | some n => if s.drained then some { s with cur := n, chosen := none, drained := false, waiting := [] } else none

def run : St → List Act → Option St
  | s, [] => some s
  | s, a :: as => (step s a).bind (fun s => run s as)

def trace : St → List Act → List (St × Act)
  | _, [] => []
  | s, a :: as => (s, a) :: (match step s a with
    | some s' => trace s' as
    | none => [])

end PeerBuf
end Salticidae
