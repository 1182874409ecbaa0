/-
Model of the sockets of ConnPool and of what its functions do when a system call fails:
  src/conn.cpp:300-333 (accept_client), 335-359 (conn_server), 361-391 (_listen), 393-435 (_connect), 288-299 (disp_terminate), 437-451 (del_conn,
  release_conn),
  include/salticidae/conn.h:547-589 (~ConnPool, stop_workers, stop), include/salticidae/network.h:265 (MsgNetwork::stop), conn.h:591-622 (connect_sync, connect, listen), 166-170 (recoverable_error).

The process has a table of descriptors; the library and the application open and close descriptors in it; the system gives any number
that is not in use.  A step is one closure or event of the dispatcher.

Simplified: the way of a termination through the worker (Model/Pool) is one closure, `terminate`; the loop of `stop_workers` is one step;
ids of calls are numbers that do not wrap (C52 is about that); after `stop` there is no dispatcher any more, so no step of the library.
-/
namespace Salticidae
namespace Sock

/-- Who has a descriptor open. -/
inductive Owner where
  | lib | app
  deriving DecidableEq, Repr

/-- One connection. -/
structure Conn where
  fd : Nat
  call : Option Nat      -- the connect() that made it; none: accepted
  polled : Bool          -- ev_connect is polling
  fed : Bool             -- given to a worker
  term : Bool            -- terminated
  tasks : Nat            -- closures waiting that terminate it
  deriving DecidableEq, Repr

inductive Out where
  | err (id : Int)       -- recoverable_error(err, id)
  | threw                -- connect_sync or listen throws
  | gone (c : Nat)       -- conn_cb(conn, false)
  deriving DecidableEq, Repr

structure St where
  tab : Nat → Option Owner
  lfd : Option Nat             -- listen_fd (none: -1)
  evl : Option (Nat × Nat)     -- descriptor ev_listen polls, and the port it is bound to
  conns : List Conn
  calls : Nat                  -- calls of connect so far
  out : List Out
  bad : Bool                   -- close() of a descriptor that the library does not have open
  stopped : Bool               -- stop() has returned
  destroyed : Bool             -- the network is destroyed

def init : St := ⟨fun _ => none, none, none, [], 0, [], false, false, false⟩

def setTab (s : St) (fd : Nat) (o : Option Owner) : St := { s with tab := fun d => if d = fd then o else s.tab d }
def say (s : St) (o : Out) : St := { s with out := s.out ++ [o] }

/-- ::close. -/
def close (s : St) (fd : Nat) : St := if s.tab fd = some .lib then setTab s fd none else { s with bad := true }

def close? (s : St) : Option Nat → St
  | some fd => close s fd
  | none => s

/-- The system call that fails. -/
inductive Fail where
  | socket     -- socket, accept
  | option     -- setsockopt, fcntl
  | last       -- bind or listen; connect, other than EINPROGRESS
  deriving DecidableEq, Repr

/-- `_listen`, conn.cpp:361-391; `fd`: what socket() gives. -/
def listen (s : St) (fd port : Nat) (fail : Option Fail) : St :=
  let s := close? { s with evl := none } s.lfd      -- 363-367
  match fail with
  | some .socket => say { s with lfd := none } .threw
  | some _ => say { setTab s fd (some .lib) with lfd := some fd } .threw
  | none => { setTab s fd (some .lib) with lfd := some fd, evl := some (fd, port) }

/-- An error of `_connect`: reported with the id of the call (conn.h:602-612), or thrown by connect_sync. -/
def failed (s : St) (call : Option Nat) : St :=
  match call with
  | some k => say s (.err k)
  | none => say s .threw

/-- `_connect`, conn.cpp:393-435. -/
def connect (s : St) (call : Option Nat) (fd : Nat) (fail : Option Fail) : St :=
  match fail with
  | some .socket => failed s call
  | some .option => failed (setTab s fd (some .lib)) call
  | some .last => { setTab s fd (some .lib) with conns := s.conns ++ [⟨fd, call, false, false, false, 1⟩] }
  | none => { setTab s fd (some .lib) with conns := s.conns ++ [⟨fd, call, true, false, false, 0⟩] }

/-- `accept_client`, conn.cpp:300-333. -/
def accept (s : St) (fd : Nat) (fail : Option Fail) : St :=
  match fail with
  | some .socket => say { s with evl := none } (.err (-1))
  | some _ => say (setTab s fd (some .lib)) (.err (-1))
  | none => { setTab s fd (some .lib) with conns := s.conns ++ [⟨fd, none, false, true, false, 0⟩] }

/-- del_conn and release_conn, conn.cpp:437-451, with `set_terminated`. -/
def del (s : St) (c : Nat) (x : Conn) : St :=
  say (close { s with conns := s.conns.set c { x with term := true, polled := false } } x.fd) (.gone c)

/-- What stop_workers does with the connections, conn.h:571-578: all that are left in the pool are released. -/
def stopLoop : List Conn → St → St
  | [], s => s
  | x :: xs, s => stopLoop xs (if x.term then s else close s x.fd)

/-- `stop` of a MsgNetwork, ClientNetwork or PeerNetwork, network.h:265: only stop_workers, conn.h:558-579, unlike the `stop` of ConnPool that it hides.
Nobody polls the listening socket any more. -/
def stop (s : St) : St :=
  let s := stopLoop s.conns s
  { s with conns := s.conns.map (fun x => { x with term := true, polled := false, tasks := 0 }), evl := none, stopped := true }

/-- ~ConnPool, conn.h:543, 581-589: stop_workers if that has not been done, and the listening socket is closed. -/
def destroy (s : St) : St :=
  let s := if s.stopped then s else stop s
  { close? { s with evl := none } s.lfd with lfd := none, destroyed := true }

inductive Act where
  | appOpen (fd : Nat)
  | appClose (fd : Nat)
  | listen (fd port : Nat) (fail : Option Fail)
  | connect (fd : Nat) (fail : Option Fail)         -- connect(addr): the closure
  | connectSync (fd : Nat) (fail : Option Fail)     -- connect_sync(addr)
  | accept (fd : Nat) (fail : Option Fail)          -- ev_listen has a client
  | connReady (c : Nat)                             -- conn_server: send() gives 0
  | connFail (c : Nat) (timeout : Bool)             -- conn_server fails
  | terminate (c : Nat)                             -- a termination is requested by the user or by a worker
  | run (c : Nat)                                   -- one of the closures that terminate c
  | stop
  | destroy
  deriving DecidableEq, Repr

/-- One step; `none` when it cannot happen. -/
def step (s : St) : Act → Option St
  | .appOpen fd => if s.tab fd = none then some (setTab s fd (some .app)) else none
  | .appClose fd => if s.tab fd = some .app then some (setTab s fd none) else none
  | .listen fd port fail =>
    -- the old socket is closed before the new one is opened
    if !s.stopped && (s.tab fd = none || s.lfd = some fd) then some (listen s fd port fail) else none
  | .connect fd fail =>
    if !s.stopped && s.tab fd = none then some (connect { s with calls := s.calls + 1 } (some s.calls) fd fail) else none
  | .connectSync fd fail => if !s.stopped && s.tab fd = none then some (connect s none fd fail) else none
  | .accept fd fail => if !s.stopped && s.evl.isSome && s.tab fd = none then some (accept s fd fail) else none
  | .connReady c =>
    match s.conns[c]? with
    | some x => if x.polled then some { s with conns := s.conns.set c { x with polled := false, fed := true } } else none
    | none => none
  | .connFail c timeout =>
    match s.conns[c]? with
    -- fd_then leaves the descriptor polled, timer_then does not: event.h:264-279
    | some x => if x.polled then
        some (say { s with conns := s.conns.set c { x with polled := !timeout, tasks := x.tasks + 1 } } (.err (-1)))
      else none
    | none => none
  | .terminate c =>
    match s.conns[c]? with
    | some x => if s.stopped then none else some { s with conns := s.conns.set c { x with tasks := x.tasks + 1 } }
    | none => none
  | .run c =>
    match s.conns[c]? with
    | some x =>
      if x.tasks = 0 then none
      else
        let y := { x with tasks := x.tasks - 1 }
        some (if x.term then { s with conns := s.conns.set c y } else del s c y)
    | none => none
  | .stop => if s.stopped then none else some (stop s)
  | .destroy => if s.destroyed then none else some (destroy s)

def run : St → List Act → Option St
  | s, [] => some s
  | s, a :: as => (step s a).bind (run · as)

end Sock
end Salticidae
