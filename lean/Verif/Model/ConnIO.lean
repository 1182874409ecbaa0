import Verif.Model.Msg
import Verif.Model.SegBuffer
/-
Model of the socket side of one plain-TCP connection, as run by its worker thread:
  src/conn.cpp:61-149 (`_send_data`, `_recv_data`),
  include/salticidae/conn.h:139-147 (`write`), 211-236 (activation), 270-301 (queue handler, event
    dispatch), 186-191 (teardown),
  include/salticidae/network.h:136-156 (poll timer, teardown), 647-702 (`MsgNetwork::on_read`).
The TLS variants (conn.cpp:152-234) have the same control flow with SSL_read/SSL_write in the place of
recv/send; they are in Model/Tls.lean.

The worker is single threaded, so one callback is one step.  The environment is the event list: data
arriving, the peer closing, the worker loop calling back for readability, writability, the send
queue's notification, the poll timer, and the termination closure.  Nondeterminism of the
environment is in the arguments:
* how many bytes each recv returns (`ks`; 0: the recv fails with an error other than EWOULDBLOCK; other
  numbers are clipped to min(chunk, available); if the list is too short a recv returns as much as
  possible), and what each send returns (`rs`);
* whether the message queue accepts the i-th enqueue attempt of this connection (`q i`); the queue
  itself is modelled in Model/Queue*.lean.
Simplifications: the send queue is a list (its linearizability is C34); logging is left out; a
notification is pending as soon as something was pushed (C39); nothing else shares the file
descriptor.
-/
namespace Salticidae.ConnIO

/-- Configuration: host byte order, opcode width, hash function, `max_msg_size`, `recv_chunk_size`,
`max_recv_buff_size`. -/
structure Cfg where
  e : Endian
  ow : Nat
  H : List Byte → List Byte
  maxMsg : Nat
  chunk : Nat
  maxSegs : Nat

/-- Result of a `send` call: number of bytes taken, EWOULDBLOCK, or another error. -/
inductive SendRes where
  | sent (n : Nat)
  | wouldBlock
  | error
  deriving DecidableEq, Repr

/-- One connection, conn.h:80-104 and network.h:72-84. The last group is for stating properties. -/
structure St (ow : Nat) where
  -- receive side
  buf : SegBuffer            -- recv_buffer
  msg : Msg ow               -- msg
  inPayload : Bool           -- msg_state == PAYLOAD
  sleep : Bool               -- msg_sleep
  poll : Bool                -- ev_enqueue_poll is armed
  readyRecv : Bool           -- ready_recv
  readOn : Bool              -- READ is in the mask of ev_socket
  sock : List Byte           -- bytes in the kernel, not yet received
  fin : Bool                 -- the peer closed its side
  -- send side
  sendq : List (List Byte)   -- send_buffer
  readySend : Bool           -- ready_send
  writeOn : Bool             -- WRITE is in the mask of ev_socket
  notif : Bool               -- the send queue's handler is due
  -- life cycle
  active : Bool              -- reading and writing have been enabled (conn.h:229-233)
  killed : Bool              -- a termination closure is queued
  closed : Bool              -- on_worker_teardown has run
  crashed : Bool             -- an exception left an event callback: std::terminate
  -- ghost
  tries : Nat                -- enqueue attempts so far
  delivered : List (Msg ow)  -- messages accepted by the message queue
  arrived : List Byte        -- all bytes that reached the socket
  sent : List Byte           -- all bytes taken by the kernel
  written : List Byte        -- all bytes accepted by write()
  over : Bool                -- an oversized header has been seen
  brk : Bool                 -- the last parsing loop ended by dropping a corrupted message

/-- A connection as set up by `Worker::feed` (conn.h:285-330), before reading is enabled. -/
def init (m : Msg ow) : St ow where
  buf := SegBuffer.empty
  msg := m
  inPayload := false
  sleep := false
  poll := false
  readyRecv := false
  readOn := false
  sock := []
  fin := false
  sendq := []
  readySend := false
  writeOn := false
  notif := false
  active := false
  killed := false
  closed := false
  crashed := false
  tries := 0
  delivered := []
  arrived := []
  sent := []
  written := []
  over := false
  brk := false

/-- How the parsing loop of `on_read` ends. -/
inductive ParseEnd where
  | done       -- `break`
  | slept      -- the queue refused: `return`
  | oversized  -- `throw MsgNetworkError`
  deriving DecidableEq, Repr

/-- Payload part of one iteration of the loop, network.h:671-690.  `inl`: continue the loop. -/
def parsePayload (cfg : Cfg) (q : Nat → Bool) (c : St cfg.ow) : St cfg.ow × Option ParseEnd :=
  let len := c.msg.length.toNat
  if c.buf.size < len then (c, some .done)
  else
    let r := c.buf.pop len
    let m := c.msg.setPayload r.1
    let c := { c with buf := r.2, msg := m, inPayload := false }
    if m.verifyChecksum cfg.e cfg.H ≠ some true then ({ c with brk := true }, some .done)
    else if q c.tries then
      ({ c with tries := c.tries + 1, delivered := c.delivered ++ [m] }, none)
    else
      ({ c with tries := c.tries + 1, sleep := true, poll := true }, some .slept)

/-- One iteration of the loop in `on_read`, network.h:655-692: state afterwards, and how the loop
ends, if it does. -/
def parseIter (cfg : Cfg) (q : Nat → Bool) (c : St cfg.ow) : St cfg.ow × Option ParseEnd :=
  if c.inPayload then parsePayload cfg q c
  else if c.buf.size < Msg.headerSize cfg.ow then (c, some .done)
  else
    let r := c.buf.pop (Msg.headerSize cfg.ow)
    match Msg.ofHeader cfg.e cfg.ow (DataStream.ofBytes r.1) with
    | none => ({ c with buf := r.2, over := true }, some .oversized) -- unreachable: the header is complete
    | some m =>
      if m.length.toNat > cfg.maxMsg then ({ c with buf := r.2, msg := m, over := true }, some .oversized)
      else parsePayload cfg q { c with buf := r.2, msg := m, inPayload := true }

/-- The loop of `on_read`, network.h:655-692.  Every iteration that does not end the loop consumes at
least a header, so `fuel` = number of buffered bytes + 1 is enough (`parseLoop_enough`); running out
of fuel would leave the state in the middle of parsing. -/
def parseLoop (cfg : Cfg) (q : Nat → Bool) : Nat → St cfg.ow → St cfg.ow × Option ParseEnd
  | 0, c => (c, none)
  | fuel + 1, c =>
    match parseIter cfg q c with
    | (c', none) => parseLoop cfg q fuel c'
    | r => r

/-- Number of bytes in the buffer (for the fuel). -/
def bufBytes (c : St ow) : Nat := (c.buf.segs.map Seg.length).sum

/-- Outcome of a callback: it may throw. -/
inductive Cb (σ : Type) where
  | ok (s : σ)
  | throw (s : σ)

/-- `on_read` without its last statement (the resume part), network.h:648-693; `ret` = it returned
from inside the loop. -/
def onReadLoop (cfg : Cfg) (q : Nat → Bool) (c : St cfg.ow) : Cb (St cfg.ow) × Bool :=
  if c.sleep then (.ok c, true)
  else match parseLoop cfg q (bufBytes c + 2) { c with brk := false } with
    | (c', some .slept) => (.ok c', true)
    | (c', some .oversized) => (.throw c', true)
    | (c', _) => (.ok c', false)

/-- One successful `recv` of at most `chunk` bytes, conn.cpp:126: at least one byte, at most what is
available; `k` is the environment's choice. -/
def recvLen (cfg : Cfg) (avail k : Nat) : Nat := max 1 (min k (min cfg.chunk avail))

/-- How the receive loop ends. -/
inductive RecvEnd where
  | full     -- the buffer is full: READ masked, `return`
  | stop     -- nothing more to receive now
  | eof      -- the peer closed, or recv failed: termination requested, `return`
  deriving DecidableEq, Repr

/-- The loop of `_recv_data`, conn.cpp:113-145.  `fuel` counts iterations; the loop runs until the
buffer is full, so `maxSegs + 1` iterations are enough. -/
def recvLoop (cfg : Cfg) : Nat → List Nat → St ow → St ow × RecvEnd
  | 0, _, c => (c, .full)
  | fuel + 1, ks, c =>
    if c.buf.len ≥ cfg.maxSegs then
      ({ c with readOn := false, writeOn := !c.readySend, readyRecv := true }, .full)
    else if ks.headD cfg.chunk = 0 then ({ c with killed := true }, .eof)
    else if c.sock = [] then
      if c.fin then ({ c with killed := true }, .eof) else (c, .stop)
    else
      let n := recvLen cfg c.sock.length (ks.headD cfg.chunk)
      let c' := { c with buf := c.buf.push (c.sock.take n), sock := c.sock.drop n }
      if n = cfg.chunk then recvLoop cfg fuel ks.tail c' else (c', .stop)

/-- `_recv_data`, conn.cpp:107-149, when called with READ, up to the resume part of the nested
`on_read`, which never applies here because `ready_recv` has just been cleared. -/
def recvData (cfg : Cfg) (q : Nat → Bool) (ks : List Nat) (c : St cfg.ow) : Cb (St cfg.ow) :=
  match recvLoop cfg (cfg.maxSegs + 1) ks c with
  | (c', .stop) => (onReadLoop cfg q { c' with readyRecv := false }).1
  | (c', _) => .ok c'

/-- `on_read`, network.h:648-702, including the resume part. -/
def onRead (cfg : Cfg) (q : Nat → Bool) (ks : List Nat) (c : St cfg.ow) : Cb (St cfg.ow) :=
  match onReadLoop cfg q c with
  | (r, true) => r
  | (.throw c', false) => .throw c'
  | (.ok c', false) =>
    if c'.readyRecv ∧ c'.buf.len < cfg.maxSegs then
      recvData cfg q ks { c' with readOn := true, writeOn := !c'.readySend }
    else .ok c'

/-- The loop of `_send_data`, conn.cpp:68-99, by recursion on the send queue: `sent n` with n equal to
the segment size goes on; an empty segment ends the loop. -/
def sendLoop : List SendRes → St ow → List (List Byte) → St ow
  | _, c, [] => { c with sendq := [], readOn := !c.readyRecv, writeOn := false, readySend := true }
  | rs, c, seg :: segs =>
    if seg = [] then
      { c with sendq := segs, readOn := !c.readyRecv, writeOn := false, readySend := true }
    else match rs with
      | [] => { c with sendq := seg :: segs, readySend := false }  -- no more answers: EWOULDBLOCK
      | .wouldBlock :: _ => { c with sendq := seg :: segs, readySend := false }
      | .error :: _ => { c with sendq := seg :: segs, killed := true }
      | .sent n :: rs =>
        if n ≥ seg.length then sendLoop rs { c with sent := c.sent ++ seg } segs
        else if n = 0 then { c with sendq := seg :: segs, readySend := false }
        else { c with sendq := seg.drop n :: segs, sent := c.sent ++ seg.take n, readySend := false }

/-- `_send_data`, conn.cpp:61-105, when called with WRITE. -/
def sendData (rs : List SendRes) (c : St ow) : St ow := sendLoop rs c c.sendq

/-- What can happen to a connection. -/
inductive Ev where
  | arrive (bs : List Byte)
  | peerClose
  | activate
  | readable (ks : List Nat)
  | poll (ks : List Nat)
  | write (d : List Byte) (accepted : Bool)
  | notified (rs : List SendRes)
  | writable (rs : List SendRes)
  | sockError
  | teardown

/-- The event dispatcher of `feed` catches exceptions and requests termination, conn.h:289-298. -/
def caught (r : Cb (St ow)) : St ow :=
  match r with
  | .ok c => c
  | .throw c => { c with killed := true }

/-- The poll timer's callback does not catch: the process terminates, network.h:139-149. -/
def uncaught (r : Cb (St ow)) : St ow :=
  match r with
  | .ok c => c
  | .throw c => { c with crashed := true }

/-- One event.  An event that cannot happen in the state (its watcher is not armed, the connection is
closed, the process is dead) changes nothing.
`sockError`: the loop reports an error on the descriptor (event.h:96-101), conn.cpp:62-66.
`poll`: network.h:139-149 (the timer is one-shot; it retries the enqueue).
`teardown`: the termination closure, conn.cpp:275-284 with network.h:152-156 and conn.h:186-191 (a
termination may also be requested by the user, so it does not need `killed`). -/
def step (cfg : Cfg) (q : Nat → Bool) (c : St cfg.ow) (ev : Ev) : St cfg.ow :=
  if c.crashed then c else
  match ev with
  | .arrive bs => if c.fin then c else { c with sock := c.sock ++ bs, arrived := c.arrived ++ bs }
  | .peerClose => { c with fin := true }
  | .activate =>
    if c.closed ∨ c.active then c else { c with active := true, readOn := true, writeOn := true }
  | .readable ks => if c.readOn ∧ ¬ c.closed then caught (recvData cfg q ks c) else c
  | .poll ks =>
    if c.poll ∧ ¬ c.closed then
      if q c.tries then
        uncaught (onRead cfg q ks { c with poll := false, sleep := false, tries := c.tries + 1,
                                           delivered := c.delivered ++ [c.msg] })
      else { c with tries := c.tries + 1, sleep := true, poll := true }
    else c
  | .write d accepted =>
    if accepted then { c with sendq := c.sendq ++ [d], written := c.written ++ d, notif := true } else c
  | .notified rs =>
    if c.notif ∧ ¬ c.closed then
      let c := { c with notif := false }
      if c.readySend then
        sendData rs { c with readOn := !c.readyRecv, writeOn := true }
      else c
    else c
  | .writable rs => if c.writeOn ∧ ¬ c.closed then sendData rs c else c
  | .sockError => if c.active ∧ ¬ c.closed then { c with killed := true } else c
  | .teardown =>
    if c.closed then c
    else { c with closed := true, readOn := false, writeOn := false, poll := false, notif := false }

/-- The socket's callback, conn.h:289-298: when the loop reports the socket readable, receive; otherwise
send.  A socket reported both readable and writable is only read. -/
def dispatch (readable : Bool) (ks : List Nat) (rs : List SendRes) : Ev :=
  if readable then .readable ks else .writable rs

/-- What a level-triggered loop reports as readable: data or the end of the stream, if watched. -/
def St.reportsRead (c : St ow) : Bool := c.readOn && (c.sock ≠ [] || c.fin)

/-- All states a connection can get into. -/
def run (cfg : Cfg) (q : Nat → Bool) (c : St cfg.ow) (evs : List Ev) : St cfg.ow :=
  evs.foldl (step cfg q) c

end Salticidae.ConnIO
