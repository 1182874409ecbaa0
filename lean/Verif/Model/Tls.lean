import Verif.Model.ConnIO
/-
Model of TLS connections on one worker thread:
  src/conn.cpp:152-232 (`_send_data_tls`, `_recv_data_tls`), 234-272 (handshake, dummy receive),
  include/salticidae/conn.h:186-191 (teardown), 212-238 (`update_conn`), 302-311 (`feed` with TLS),
  include/salticidae/crypto.h:362-421 (`class TLS`),
  include/salticidae/buffer.h:139-143 (`MPSCWriteBuffer::move_pop`).
Everything behind the socket functions (receive buffer, message parsing, queueing, polling) is the code
modelled in Model/ConnIO.lean and is used from there: field `c`.

OpenSSL is not part of the repository; it is modelled by its documented contract:
* SSL_read returns bytes of at most one record; a record is loaded only when the previous one has
  been handed out completely (read-ahead is off); WANT_READ if no complete record is available.
* SSL_write with SSL_MODE_ENABLE_PARTIAL_WRITE and without SSL_MODE_ACCEPT_MOVING_WRITE_BUFFER (the
  modes set in crypto.h:377): a write that answered WANT_WRITE must be repeated with the same buffer
  address, otherwise it fails ("bad write retry").
* SSL_get_error reports a failure whenever the calling thread's error queue is not empty, whatever the
  operation itself answered; operations that fail leave entries in the queue; SSL_do_handshake empties
  it first; SSL_shutdown of a connection in its handshake leaves an entry.  The repository nowhere
  empties the queue (no ERR_ function is called).
What the network makes of each operation is the environment's choice (`ReadAns`, `WriteAns`, `HsAns`).
Simplifications: plaintext only (no encryption); empty records, which SSL_read skips, do not occur; a
partial record in the socket is not represented (SSL_read answers WANT_READ).
-/
namespace Salticidae.Tls
open ConnIO (Cfg Cb RecvEnd onReadLoop)

/-- Which functions `send_data_func`/`recv_data_func` point to. -/
inductive Phase where
  | handshake  -- the handshake functions
  | waiting    -- `_send_data_tls` and `_recv_data_dummy`: handshake done, connection callback due
  | opened     -- `_send_data_tls` and `_recv_data_tls`
  deriving DecidableEq, Repr

/-- A heap buffer: address and contents. -/
structure Buf where
  addr : Nat
  data : List Byte
  deriving DecidableEq, Repr

/-- One TLS connection. -/
structure St (ow : Nat) where
  c : ConnIO.St ow             -- the rest of the connection; `c.sock` is the plaintext that arrived and has not
                               -- been handed out, `c.sendq` the contents of `bufs`
  phase : Phase
  pend : Nat                   -- decrypted bytes of the current record, not yet handed out (SSL_pending)
  recs : List Nat              -- sizes of the complete records in the kernel; c.sock has pend + recs.sum bytes
  bufs : List Buf              -- send_buffer
  retry : Option (Nat × Nat)   -- OpenSSL: a write that answered WANT_WRITE, its buffer address and length
  due : Nat                    -- connection callbacks (true) on their way
  -- ghost
  calls : Nat                  -- connection callbacks (true) that have run
  enc : List Byte              -- all plaintext OpenSSL has put into records
  hs : Bool                    -- the handshake has completed, with a certificate of the peer
  yes : Bool                   -- the connection callback has accepted

/-- A connection as fed to its worker, conn.h:302-311: READ and WRITE are watched. -/
def init (m : Msg ow) : St ow where
  c := { ConnIO.init m with readOn := true, writeOn := true }
  phase := .handshake
  pend := 0
  recs := []
  bufs := []
  retry := none
  due := 0
  calls := 0
  enc := []
  hs := false
  yes := false

/-- What an SSL_read runs into. -/
inductive ReadAns where
  | normal      -- data, end of stream or WANT_READ, as the socket has it
  | wantWrite   -- renegotiation or key update: SSL_ERROR_WANT_WRITE
  | fatal       -- a bad record, an alert, a connection reset
  deriving DecidableEq, Repr

/-- What an SSL_write runs into. -/
inductive WriteAns where
  | taken (n : Nat)   -- the record is written out (at most n bytes of the buffer fit into it)
  | wantWrite         -- the kernel's buffer is full
  | wantRead          -- renegotiation: SSL_ERROR_WANT_READ
  | fatal
  deriving DecidableEq, Repr

/-- What SSL_do_handshake runs into. -/
inductive HsAns where
  | done (cert : Bool)   -- with or without a certificate of the peer
  | wantRead
  | wantWrite
  | fatal
  deriving DecidableEq, Repr

/-- SSL_write's answer. -/
inductive WRes where
  | ok (n : Nat)
  | wantWrite
  | other             -- any other SSL_get_error
  deriving DecidableEq, Repr

/-- Largest record, 2^14 bytes. -/
def maxRecord : Nat := 16384

/-- `TLS::send`, crypto.h:404-406 and `get_error`, by OpenSSL's contract: answer, error left in the
queue, the write to be repeated, and the plaintext newly put into a record. -/
def sslWrite (retry : Option (Nat × Nat)) (addr : Nat) (data : List Byte) (w : WriteAns) :
    WRes × Bool × Option (Nat × Nat) × List Byte :=
  match retry with
  | some (a, l) =>
    if a ≠ addr ∨ data.length < l then (.other, true, retry, [])   -- bad write retry
    else match w with
      | .taken _ => (.ok l, false, none, [])
      | .wantWrite => (.wantWrite, false, retry, [])
      | .wantRead => (.other, false, retry, [])
      | .fatal => (.other, true, retry, [])
  | none =>
    let rec' := min data.length maxRecord
    match w with
    | .taken n => let n := max 1 (min n rec'); (.ok n, false, none, data.take n)
    | .wantWrite => (.wantWrite, false, some (addr, rec'), data.take rec')
    | .wantRead => (.other, false, none, [])
    | .fatal => (.other, true, none, [])

/-- An address the allocator may give while the buffers at `live` exist. -/
def alloc (choice : Nat) (live : List Nat) : Nat :=
  if choice ∈ live then live.foldl max 0 + 1 else choice

/-- Put the send buffer's contents back. -/
def St.setBufs (t : St ow) (bs : List Buf) : St ow :=
  { t with bufs := bs, c := { t.c with sendq := bs.map Buf.data } }

/-- The loop of `_send_data_tls`, conn.cpp:159-190, by recursion on the send buffer.  `move_pop`
(buffer.h:139-143) moves the entry out of the queue into a local and returns a copy of its vector, so
the copy is at another address than the entry; `rewind` (buffer.h:130-132, queue.h:271-290) moves, so
the address is kept.  If there are not enough answers, SSL_write takes a record.  `eq`: the thread's error queue is not empty. -/
def sendLoop : List (Nat × WriteAns) → Bool → St ow → List Buf → St ow × Bool
  | _, eq, t, [] =>
    let t := t.setBufs []
    ({ t with c := { t.c with readOn := !t.c.readyRecv, writeOn := false, readySend := true } }, eq)
  | ws, eq, t, b :: rest =>
    if b.data = [] then
      let t := t.setBufs rest
      ({ t with c := { t.c with readOn := !t.c.readyRecv, writeOn := false, readySend := true } }, eq)
    else
      let w := ws.headD (0, .taken maxRecord)
      let a := alloc w.1 (b.addr :: rest.map Buf.addr)
      let r := sslWrite t.retry a b.data w.2
      let t := { t with retry := r.2.2.1, enc := t.enc ++ r.2.2.2 }
      let eq := eq || r.2.1
      match r.1 with
      | .ok n =>
        let t := { t with c := { t.c with sent := t.c.sent ++ b.data.take n } }
        if n ≥ b.data.length then sendLoop ws.tail eq t rest
        else
          let t := t.setBufs (⟨alloc w.1 (a :: rest.map Buf.addr), b.data.drop n⟩ :: rest)
          ({ t with c := { t.c with readySend := false } }, eq)
      | .wantWrite =>
        let t := t.setBufs (⟨a, b.data⟩ :: rest)
        if eq then ({ t with c := { t.c with killed := true } }, eq)
        else ({ t with c := { t.c with readySend := false } }, eq)
      | .other =>
        let t := t.setBufs (⟨a, b.data⟩ :: rest)
        ({ t with c := { t.c with killed := true } }, eq)

/-- `_send_data_tls`, conn.cpp:152-194, when called with WRITE. -/
def sendData (ws : List (Nat × WriteAns)) (eq : Bool) (t : St ow) : St ow × Bool :=
  sendLoop ws eq t t.bufs

/-- Number of bytes SSL_read can hand out at once: the rest of the current record, or the next one. -/
def St.ready (t : St ow) : Nat := if t.pend = 0 then t.recs.headD 0 else t.pend

/-- `TLS::recv`, crypto.h:408-410, handing out `n` bytes. -/
def St.hand (t : St ow) (n : Nat) : St ow :=
  { t with
    pend := t.ready - n
    recs := if t.pend = 0 then t.recs.tail else t.recs
    c := { t.c with buf := t.c.buf.push (t.c.sock.take n), sock := t.c.sock.drop n } }

/-- The loop of `_recv_data_tls`, conn.cpp:206-229. -/
def recvLoop (cfg : Cfg) : Nat → List ReadAns → Bool → St ow → St ow × Bool × RecvEnd
  | 0, _, eq, t => (t, eq, .full)
  | fuel + 1, as, eq, t =>
    if t.c.buf.len ≥ cfg.maxSegs then
      ({ t with c := { t.c with readOn := false, writeOn := !t.c.readySend, readyRecv := true } }, eq, .full)
    else match as.headD .normal with
    | .fatal => ({ t with c := { t.c with killed := true } }, true, .eof)
    | .wantWrite => ({ t with c := { t.c with killed := true } }, eq, .eof)
    | .normal =>
      if t.ready = 0 then
        if t.c.fin then ({ t with c := { t.c with killed := true } }, eq, .eof)
        else if eq then ({ t with c := { t.c with killed := true } }, eq, .eof)
        else (t, eq, .stop)
      else
        let n := min cfg.chunk t.ready
        if n = cfg.chunk then recvLoop cfg fuel as.tail eq (t.hand n) else (t.hand n, eq, .stop)

/-- `_recv_data_tls`, conn.cpp:196-232, when called with READ; the resume part of the nested `on_read`
never applies because `ready_recv` has just been cleared. -/
def recvData (cfg : Cfg) (q : Nat → Bool) (as : List ReadAns) (eq : Bool) (t : St cfg.ow) :
    Cb (St cfg.ow) × Bool :=
  match recvLoop cfg (cfg.maxSegs + 1) as eq t with
  | (t', eq', .stop) =>
    match (onReadLoop cfg q { t'.c with readyRecv := false }).1 with
    | .ok d => (.ok { t' with c := d }, eq')
    | .throw d => (.throw { t' with c := d }, eq')
  | (t', eq', _) => (.ok t', eq')

/-- `on_read`, network.h:648-702, with `recv_data_func = _recv_data_tls`. -/
def onRead (cfg : Cfg) (q : Nat → Bool) (as : List ReadAns) (eq : Bool) (t : St cfg.ow) :
    Cb (St cfg.ow) × Bool :=
  match onReadLoop cfg q t.c with
  | (.ok d, true) => (.ok { t with c := d }, eq)
  | (.throw d, _) => (.throw { t with c := d }, eq)
  | (.ok d, false) =>
    if d.readyRecv ∧ d.buf.len < cfg.maxSegs then
      recvData cfg q as eq { t with c := { d with readOn := true, writeOn := !d.readySend } }
    else (.ok { t with c := d }, eq)

/-- What can happen to a connection. -/
inductive Ev where
  | arrive (bs : List Byte)               -- a complete record
  | peerClose
  | shake (viaWrite : Bool) (ans : HsAns) -- the socket is ready while in the handshake
  | callback (accept : Bool)              -- the connection callback runs and answers
  | readable (as : List ReadAns)
  | poll (as : List ReadAns)
  | write (d : List Byte) (accepted : Bool) (addr : Nat)
  | notified (ws : List (Nat × WriteAns))
  | writable (ws : List (Nat × WriteAns))
  | sockError
  | teardown (leaves : Bool)              -- `leaves`: SSL_shutdown leaves an error in the queue

def caught (r : Cb (St ow) × Bool) : St ow × Bool :=
  match r with
  | (.ok t, eq) => (t, eq)
  | (.throw t, eq) => ({ t with c := { t.c with killed := true } }, eq)

def uncaught (r : Cb (St ow) × Bool) : St ow × Bool :=
  match r with
  | (.ok t, eq) => (t, eq)
  | (.throw t, eq) => ({ t with c := { t.c with crashed := true } }, eq)

/-- `_send_data_tls_handshake` and `_recv_data_tls_handshake`, conn.cpp:234-272; `viaWrite`: the socket
is not reported readable, so the first one is called.  An exception of `do_handshake` (crypto.h:382-395)
or `get_peer_cert` (crypto.h:397-402) is caught by the dispatcher of `feed`, which requests
termination, conn.h:289-298. -/
def shake (viaWrite : Bool) (ans : HsAns) (t : St ow) : St ow × Bool :=
  let t := if viaWrite then { t with c := { t.c with readySend := true } } else t
  match ans with
  | .fatal => ({ t with c := { t.c with killed := true } }, true)
  | .wantRead => ({ t with c := { t.c with readOn := true, writeOn := false } }, false)
  | .wantWrite => ({ t with c := { t.c with readOn := false, writeOn := true } }, false)
  | .done cert =>
    let t := { t with phase := .waiting, c := { t.c with readOn := false, writeOn := false } }
    if cert then ({ t with hs := true, due := t.due + 1 }, false)
    else ({ t with c := { t.c with killed := true } }, false)

/-- One event, as in Model/ConnIO.lean.  An event that cannot happen changes nothing.
`callback`: conn.cpp:249-258 and conn.h:212-230 (the closures through dispatcher and user thread are
one event; the last one checks `is_terminated`).
`notified`: the handler is registered when the handshake completes, conn.cpp:248.
`writable`: without a certificate nothing is watched any more.
`readable` in the waiting phase: `_recv_data_dummy`, conn.cpp:274.
`teardown`: conn.h:186-191. -/
def step (cfg : Cfg) (q : Nat → Bool) (eq : Bool) (t : St cfg.ow) (ev : Ev) : St cfg.ow × Bool :=
  if t.c.crashed then (t, eq) else
  match ev with
  | .arrive bs =>
    if t.c.fin ∨ bs = [] then (t, eq)
    else ({ t with recs := t.recs ++ [bs.length], c := { t.c with sock := t.c.sock ++ bs, arrived := t.c.arrived ++ bs } }, eq)
  | .peerClose => ({ t with c := { t.c with fin := true } }, eq)
  | .shake viaWrite ans =>
    if t.phase = .handshake ∧ ¬ t.c.closed ∧ (t.c.readOn ∨ t.c.writeOn) then shake viaWrite ans t else (t, eq)
  | .callback accept =>
    if 0 < t.due then
      let t := { t with due := t.due - 1, calls := t.calls + 1, yes := accept }
      if t.c.closed then (t, eq)
      else if accept then
        ({ t with phase := .opened, c := { t.c with active := true, readOn := true, writeOn := true } }, eq)
      else ({ t with c := { t.c with killed := true } }, eq)
    else (t, eq)
  | .readable as =>
    if t.c.readOn ∧ ¬ t.c.closed ∧ t.phase = .opened then caught (recvData cfg q as eq t) else (t, eq)
  | .poll as =>
    if t.c.poll ∧ ¬ t.c.closed then
      if q t.c.tries then
        uncaught (onRead cfg q as eq { t with c := { t.c with
          poll := false, sleep := false, tries := t.c.tries + 1, delivered := t.c.delivered ++ [t.c.msg] } })
      else ({ t with c := { t.c with tries := t.c.tries + 1, sleep := true, poll := true } }, eq)
    else (t, eq)
  | .write d accepted addr =>
    if accepted then
      let t := t.setBufs (t.bufs ++ [⟨alloc addr (t.bufs.map Buf.addr), d⟩])
      ({ t with c := { t.c with written := t.c.written ++ d, notif := true } }, eq)
    else (t, eq)
  | .notified ws =>
    if t.c.notif ∧ ¬ t.c.closed ∧ t.hs then
      let t := { t with c := { t.c with notif := false } }
      if t.c.readySend then
        sendData ws eq { t with c := { t.c with readOn := !t.c.readyRecv, writeOn := true } }
      else (t, eq)
    else (t, eq)
  | .writable ws =>
    if t.c.writeOn ∧ ¬ t.c.closed ∧ t.hs then sendData ws eq t else (t, eq)
  | .sockError =>
    if t.phase ≠ .handshake ∧ ¬ t.c.closed then ({ t with c := { t.c with killed := true } }, eq) else (t, eq)
  | .teardown leaves =>
    if t.c.closed then (t, eq)
    else ({ t with c := { t.c with closed := true, readOn := false, writeOn := false, poll := false, notif := false } },
      eq || leaves || (t.phase = .handshake : Bool))

/-- A worker thread: its connections, and whether its OpenSSL error queue holds anything. -/
structure Worker (ow : Nat) where
  conns : Nat → St ow
  errq : Bool

/-- A worker with new connections. -/
def Worker.init (m : Msg ow) : Worker ow := ⟨fun _ => Tls.init m, false⟩

/-- An event of connection `e.1`; `q i`: the message queue's answers to connection i. -/
def Worker.step (cfg : Cfg) (q : Nat → Nat → Bool) (w : Worker cfg.ow) (e : Nat × Ev) : Worker cfg.ow :=
  let r := Tls.step cfg (q e.1) w.errq (w.conns e.1) e.2
  ⟨fun i => if i = e.1 then r.1 else w.conns i, r.2⟩

def Worker.run (cfg : Cfg) (q : Nat → Nat → Bool) (w : Worker cfg.ow) (evs : List (Nat × Ev)) : Worker cfg.ow :=
  evs.foldl (Worker.step cfg q) w

end Salticidae.Tls
