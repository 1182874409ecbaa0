/-
Model of the life of connections in ConnPool: src/conn.cpp:243-460 and include/salticidae/conn.h:166-383,
548-640, as a machine whose steps are what the threads do: the dispatcher (worker 0), the other workers
and the user's thread each execute the closures of their ThreadCall in order (C40), and handle events
of the operating system; a step is one closure or one event.

Modelled: accept_client, _connect, conn_server, Worker::feed (TLS and not), worker_terminate,
disp_terminate, terminate, on_worker_teardown, del_conn, release_conn, add_conn, update_conn,
select_worker, enable_send_buffer (only when it polls the socket again), the TLS handshake (as one
event), stop_workers.  Not modelled: the bytes (see Model/ConnIO), what the derived class does in
the hooks (counted), failures of setsockopt/fcntl (the connection is not created).

`nconn` is an integer here; in the code it is a size_t that wraps below 0: it is read modulo 2^64.
A descriptor number given by the system is not in use by an open connection.
-/
namespace Salticidae
namespace Pool

/-- One connection. -/
structure Conn where
  fd : Nat
  active : Bool           -- mode ACTIVE
  term : Bool             -- terminated
  worker : Option Nat
  evConn : Bool           -- ev_connect is polling
  sock : Bool             -- ev_socket exists
  armed : Bool            -- ev_socket is polling
  recvData : Bool         -- recv_data_func is _recv_data or _recv_data_tls
  handshake : Bool        -- recv_data_func is _recv_data_tls_handshake
  sendOn : Bool           -- handler of the send buffer registered
  readySend : Bool
  wSetup : Nat            -- calls of on_worker_setup
  wDown : Nat             -- calls of on_worker_teardown
  dSetup : Nat            -- calls of on_dispatcher_setup
  dDown : Nat             -- calls of on_dispatcher_teardown
  closed : Nat            -- calls of ::close
  reads : Nat             -- times data was read from the socket
  cbs : List Bool         -- arguments `connected` of the connection callback, in order
  verdict : Option Bool   -- ghost: what the callback answered for connected = true
  fed : Bool              -- ghost: the worker has executed `feed`
  stale : Bool            -- ghost: `feed` was executed after the descriptor was closed
  asked : Bool            -- ghost: termination was requested
  deriving DecidableEq, Repr

/-- A new connection, conn.h:117-125, conn.cpp:318-326, 405-413. -/
def newConn (fd : Nat) (active : Bool) : Conn :=
  ⟨fd, active, false, none, false, false, false, false, false, false, false, 0, 0, 0, 0, 0, 0, [], none, false, false, false⟩

/-- Closures waiting in the ThreadCall of a worker. -/
inductive Task where
  | feed (c : Nat)              -- conn.h:287
  | setup (c : Nat)             -- conn.h:314, conn.cpp:258 (dispatcher)
  | wterm (c : Nat)             -- conn.cpp:276
  | dterm (c : Nat)             -- conn.cpp:293 (dispatcher)
  | userTerm (c : Nat)          -- conn.h:631 (dispatcher)
  | del (c : Nat)               -- conn.cpp:280 (dispatcher)
  | approve (c : Nat) (r : Bool) -- conn.h:219, 231
  deriving DecidableEq, Repr

/-- Closures waiting in the user's ThreadCall: update_conn, conn.h:212. -/
structure Upd where
  c : Nat
  connected : Bool
  deriving DecidableEq, Repr

/-- The pool. -/
structure St where
  n : Nat                   -- number of connections created
  conn : Nat → Conn
  pool : List (Nat × Nat)   -- descriptor ↦ connection
  wq : Nat → List Task
  uq : List Upd
  nconn : Nat → Int
  listening : Bool
  ub : Bool                 -- `del_conn` erased an entry that is not there or somebody else's, or a null `worker` was used

/-- `f` with the value at `i` replaced. -/
def upd {α : Type} (f : Nat → α) (i : Nat) (v : α) : Nat → α := fun j => if j = i then v else f j

/-- A started pool, listening. -/
def init : St := ⟨0, fun _ => newConn 0 false, [], fun _ => [], [], fun _ => 0, true, false⟩

def setConn (s : St) (c : Nat) (x : Conn) : St := { s with conn := upd s.conn c x }
def post (s : St) (w : Nat) (t : Task) : St := { s with wq := upd s.wq w (s.wq w ++ [t]) }

/-- select_worker, conn.h:370-383: the loop over `i`. -/
def selectLoop (load : Nat → Int) : List Nat → Nat → Int → Nat
  | [], idx, _ => idx
  | i :: is, idx, best => if load i < best then selectLoop load is i (load i) else selectLoop load is idx best
def selectWorker (nw : Nat) (load : Nat → Int) : Nat := selectLoop load (List.range nw) 0 (load 0)

/-- What `get_nconn` reads: the counters are size_t. -/
def loads (s : St) : Nat → Int := fun i => s.nconn i % 18446744073709551616

/-- worker_terminate, conn.cpp:275 (the connection has a worker). -/
def workerTerminate (s : St) (c : Nat) : St :=
  match (s.conn c).worker with
  | some w => post (setConn s c { s.conn c with asked := true }) w (.wterm c)
  | none => { s with ub := true }

/-- disp_terminate, conn.cpp:288-299. -/
def dispTerminate (s : St) (c : Nat) : St :=
  match (s.conn c).worker with
  | some _ => workerTerminate s c
  | none => post (setConn s c { s.conn c with asked := true }) 0 (.dterm c)

/-- on_worker_teardown, conn.h:186-191, after `set_terminated`. -/
def workerTeardown (s : St) (c : Nat) : St :=
  let x := s.conn c
  { setConn s c { x with term := true, sock := false, armed := false, sendOn := false, wDown := x.wDown + 1 } with
    nconn := match x.worker with
      | some w => upd s.nconn w (s.nconn w - 1)
      | none => s.nconn }

/-- release_conn, conn.cpp:445-451. -/
def releaseConn (s : St) (c : Nat) : St :=
  let x := s.conn c
  setConn s c { x with evConn := false, sock := false, armed := false, dDown := x.dDown + 1, closed := x.closed + 1 }

/-- del_conn, conn.cpp:437-443. -/
def delConn (s : St) (c : Nat) : St :=
  let fd := (s.conn c).fd
  let s1 := { s with
    ub := s.ub || (s.pool.find? (fun e => e.1 = fd)).map (·.2) != some c
    pool := s.pool.eraseP (fun e => e.1 = fd)
    uq := s.uq ++ [⟨c, false⟩] }
  releaseConn s1 c

/-- Worker::feed, conn.h:285-334, executed by the worker. -/
def feed (tls : Bool) (s : St) (c : Nat) (w : Nat) : St :=
  let x := s.conn c
  let x1 := { x with sock := true, fed := true, stale := x.stale || x.closed != 0 }
  let s1 := { s with nconn := upd s.nconn w (s.nconn w + 1) }
  if tls then
    setConn s1 c { x1 with armed := true, recvData := false, handshake := true }
  else
    post (setConn s1 c { x1 with recvData := true, handshake := false, sendOn := true, wSetup := x.wSetup + 1 }) 0 (.setup c)

/-- What the outside decides when a closure or event is executed. -/
structure Cfg where
  tls : Bool
  nw : Nat

/-- Executing a closure of worker `w`; `fail`: on_dispatcher_setup throws. -/
def execTask (g : Cfg) (s : St) (w : Nat) (fail : Bool) : Task → St
  | .feed c => feed g.tls s c w
  | .setup c =>
    let s1 := setConn s c { s.conn c with dSetup := (s.conn c).dSetup + 1 }
    if fail then dispTerminate s1 c else { s1 with uq := s1.uq ++ [⟨c, true⟩] }
  | .wterm c => if (s.conn c).term then s else post (workerTeardown s c) 0 (.del c)
  | .dterm c => if (s.conn c).term then s else delConn (workerTeardown s c) c
  | .userTerm c => dispTerminate s c
  | .del c => delConn s c
  | .approve c r =>
    if (s.conn c).term then s
    else if g.tls then
      if r then setConn s c { s.conn c with recvData := true, armed := true } else workerTerminate s c
    else setConn s c { s.conn c with armed := true }

/-- What can happen next. -/
inductive Act where
  | accept (fd : Nat)            -- dispatcher: a client, given descriptor fd
  | acceptFail                   -- dispatcher: accept() fails
  | listen                       -- dispatcher: _listen succeeds (again), conn.cpp:361-391
  | connect (fd : Nat) (ok : Bool) -- dispatcher: _connect; ok: in progress, otherwise refused at once
  | connReady (c : Nat)          -- dispatcher: conn_server, send() gives 0
  | connFail (c : Nat) (timeout : Bool)  -- dispatcher: conn_server fails
  | terminate (c : Nat)          -- any thread: terminate(conn)
  | exec (w : Nat) (fail : Bool) -- worker w executes its next closure
  | user (r : Bool)              -- user's thread: next closure; the callback answers r
  | readable (c : Nat)           -- worker: the socket is readable
  | writable (c : Nat)           -- worker: the socket is writable
  | hsDone (c : Nat)             -- worker: the TLS handshake completes
  | ioError (c : Nat)            -- worker: an error on the socket, conn.h:297, conn.cpp:64
  | sendBuf (c : Nat)            -- worker: handler of the send buffer, conn.h:270-283
  deriving DecidableEq, Repr

/-- No open connection has descriptor `fd`. -/
def freshFd (s : St) (fd : Nat) : Bool := (List.range s.n).all (fun c => (s.conn c).closed != 0 || (s.conn c).fd != fd)

/-- One step; `none` when it cannot happen. -/
def step (g : Cfg) (s : St) : Act → Option St
  | .accept fd =>
    if s.listening && freshFd s fd then
      let w := selectWorker g.nw (loads s)
      let c := s.n
      let s1 := { s with
        n := s.n + 1, pool := s.pool ++ [(fd, c)]
        conn := upd s.conn c { newConn fd false with worker := some w } }
      some (post s1 w (.feed c))
    else none
  | .acceptFail => if s.listening then some { s with listening := false } else none
  | .listen => some { s with listening := true }
  | .connect fd ok =>
    if freshFd s fd then
      let c := s.n
      let s1 := { s with
        n := s.n + 1, pool := s.pool ++ [(fd, c)]
        conn := upd s.conn c { newConn fd true with evConn := ok } }
      some (if ok then s1 else dispTerminate s1 c)
    else none
  | .connReady c =>
    if c < s.n ∧ (s.conn c).evConn = true then
      let w := selectWorker g.nw (loads s)
      some (post (setConn s c { s.conn c with evConn := false, worker := some w }) w (.feed c))
    else none
  | .connFail c timeout =>
    if c < s.n ∧ (s.conn c).evConn = true then
      some (dispTerminate (setConn s c { s.conn c with evConn := !timeout }) c)
    else none
  | .terminate c =>
    if c < s.n then some (post (setConn s c { s.conn c with asked := true }) 0 (.userTerm c)) else none
  | .exec w fail =>
    match s.wq w with
    | [] => none
    | t :: ts => some (execTask g { s with wq := upd s.wq w ts } w fail t)
  | .user r =>
    match s.uq with
    | [] => none
    | ⟨c, connected⟩ :: us =>
      let x := s.conn c
      let s1 := setConn { s with uq := us } c { x with
        cbs := x.cbs ++ [connected]
        verdict := if connected then some r else x.verdict }
      some (if connected then
        match x.worker with
        | some w => post s1 w (.approve c r)
        | none => { s1 with ub := true }
      else s1)
  | .readable c =>
    let x := s.conn c
    if c < s.n ∧ x.sock = true ∧ x.armed = true then
      some (if x.recvData then setConn s c { x with reads := x.reads + 1 } else s)
    else none
  | .writable c =>
    let x := s.conn c
    if c < s.n ∧ x.sock = true ∧ x.armed = true then some (setConn s c { x with readySend := true }) else none
  | .hsDone c =>
    let x := s.conn c
    if c < s.n ∧ x.sock = true ∧ x.armed = true ∧ x.handshake = true then
      some (post (setConn s c { x with
        handshake := false, armed := false, sendOn := true, wSetup := x.wSetup + 1 }) 0 (.setup c))
    else none
  | .ioError c =>
    let x := s.conn c
    if c < s.n ∧ x.sock = true ∧ x.armed = true then some (workerTerminate s c) else none
  | .sendBuf c =>
    let x := s.conn c
    if c < s.n ∧ x.sock = true ∧ x.sendOn = true ∧ x.readySend = true then some (setConn s c { x with armed := true }) else none

/-- A run. -/
def run (g : Cfg) : St → List Act → Option St
  | s, [] => some s
  | s, a :: as => (step g s a).bind (fun s => run g s as)

/-- The states of a run, each with the step taken there. -/
def trace (g : Cfg) : St → List Act → List (St × Act)
  | _, [] => []
  | s, a :: as => (s, a) :: (match step g s a with
    | some s' => trace g s' as
    | none => [])

/-- Nothing is waiting to be executed. -/
def Quiet (s : St) : Prop := (∀ w, s.wq w = []) ∧ s.uq = []

/-- stop_workers, conn.h:558-579, after all threads have been joined: every connection left in the pool
is torn down. -/
def finalize (s : St) : St := s.pool.foldl (fun s e => releaseConn (workerTeardown s e.2) e.2) s

end Pool
end Salticidae
