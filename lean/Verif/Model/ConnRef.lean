import Verif.Model.PoolMsg
/-!
Who holds a connection.  `conn_t` is an ArcObj (include/salticidae/conn.h:59, network.h:118, 292): the
object is destroyed when its last handle goes away (C44, C45).  The handles to a connection are values in
variables, tables and closures; this model lists all of them on top of the pool and its messages
(Model/Pool, Model/PoolMsg):

* the pool's table (conn.h:204, conn.cpp:453-456),
* closures waiting in the ThreadCalls of the workers and of the user (every closure of conn.cpp:258-299, conn.h:211-238, 287, 631
  captures `conn`),
* messages waiting in `incoming_msgs` (network.h:129, 678),
* the table `addr2conn` of a ClientNetwork (network.h:280, 1367-1382),
* the callbacks of events that are members of the connection itself: `ev_connect` (conn.cpp:429-431), `ev_socket` (conn.h:289-299),
  the handler of the send buffer (conn.h:269-283) and `ev_enqueue_poll` (network.h:139-149),
* the handles of the program.

The callbacks of its own events make the connection hold itself: they have to be taken away for it ever to
be destroyed; that is done by on_worker_teardown (conn.h:186-191, network.h:151-155) and release_conn (conn.cpp:445-451).

Simplified: handles that live only during one step (arguments, locals, the closure being run) are not listed; a step that uses a
connection is required to find it alive when it begins.  A program that calls terminate from inside a callback holds a handle while it does.
The handles of a PeerNetwork (network.h:433-444, 498) are not listed.
-/
namespace Salticidae
namespace ConnRef
open Pool PoolMsg

structure Cfg where
  pool : Pool.Cfg
  client : Bool        -- the network is a ClientNetwork
  addr : Nat → Nat     -- the address of the nth connection (conn->addr); several may have the same

/-- What the network is doing: between start and stop; after stop; after its destructor. -/
inductive Phase | running | stopped | destroyed
  deriving DecidableEq, Repr

structure RSt where
  m : MSt
  dial : Nat → Bool          -- ev_connect has its callback
  timer : Nat → Bool         -- ev_enqueue_poll has its callback
  table : List (Nat × Nat)   -- addr2conn
  user : Nat → Nat           -- number of handles the program holds
  phase : Phase
  gone : Nat → Nat           -- times ~Conn has run (conn.h:128-130)
  bad : Bool                 -- a connection was used after ~Conn

/-- A started network. -/
def rinit : RSt := ⟨minit, fun _ => false, fun _ => false, [], fun _ => 0, .running, fun _ => 0, false⟩

/-- The threads: worker 0 is the dispatcher; nworker is at least 1 (conn.h:426). -/
def workers (g : Cfg) : List Nat := List.range (max g.pool.nw 1)

/-- The connection a closure of a worker captures. -/
def about : Task → Nat
  | .feed c | .setup c | .wterm c | .dterm c | .userTerm c | .del c | .approve c _ => c

/-- Some closure or message about `c` waits to be run or delivered. -/
def waits (g : Cfg) (s : RSt) (c : Nat) : Bool :=
  (workers g).any (fun w => (s.m.st.wq w).any (fun t => about t = c)) ||
  s.m.st.uq.any (fun u => u.c = c) || s.m.mq.any (fun d => d = c)

/-- There is a handle to `c`. -/
def held (g : Cfg) (s : RSt) (c : Nat) : Bool :=
  s.m.st.pool.any (fun e => e.2 = c) || waits g s c || s.table.any (fun e => e.2 = c) ||
  s.dial c || (s.m.st.conn c).sock || (s.m.st.conn c).sendOn || s.timer c || s.m.poll c || (s.user c != 0)

inductive RAct where
  | pool (a : Act)                       -- a step of the pool (Model/Pool) other than those below
  | dial (fd : Nat) (ok give : Bool)     -- _connect; give: for connect_sync, which returns a handle (conn.h:592-599)
  | told (r keep : Bool)                 -- user's thread: the connection callback; keep: the program copies the handle it is given
  | read (c k : Nat) (full : Bool)       -- worker: see PoolMsg.MAct.read
  | retry (c k : Nat) (full : Bool)      -- worker: see PoolMsg.MAct.retry
  | handle (keep : Bool)                 -- user's thread: a handler is called with the next message
  | drop                                 -- user's thread: the next message is thrown away
  | copy (c : Nat)                       -- the program copies a handle it holds
  | release (c : Nat)                    -- the program drops a handle it holds
  | stop                                 -- stop(): see Pool.finalize
  | destroy                              -- ~MsgNetwork, ~ConnPool (network.h:195, conn.h:543): stop, then its members go
  deriving DecidableEq, Repr

/-- The connections a step uses (apart from those it creates). -/
def uses (s : RSt) : RAct → List Nat
  | .pool (.connReady c) | .pool (.connFail c _) | .pool (.terminate c) | .pool (.readable c) | .pool (.writable c)
  | .pool (.hsDone c) | .pool (.ioError c) | .pool (.sendBuf c) | .read c _ _ | .retry c _ _ | .copy c | .release c => [c]
  | .pool (.exec w _) => match s.m.st.wq w with
    | [] => []
    | t :: _ => [about t]
  | .told _ _ => match s.m.st.uq with
    | [] => []
    | u :: _ => [u.c]
  | .handle _ | .drop => match s.m.mq with
    | [] => []
    | c :: _ => [c]
  | .stop | .destroy => if s.phase = .running then s.m.st.pool.map (·.2) else []
  | _ => []

/-- What the hooks do with the handles when the pool has gone from `s.m` to `m'`: on_worker_setup sets the timer of the connection
(network.h:137-149) and on_worker_teardown clears it (151-155); release_conn clears `ev_connect` (conn.cpp:447); ClientNetwork's
on_dispatcher_setup puts the connection into its table in the place of any other with this address (network.h:1367-1376), and
its on_dispatcher_teardown erases the address (1378-1382). -/
def hooks (g : Cfg) (s : RSt) (m' : MSt) : RSt :=
  let was := fun c => s.m.st.conn c
  let is := fun c => m'.st.conn c
  let all := List.range m'.st.n
  let downs := all.filter (fun c => (is c).dDown != (was c).dDown)
  let ups := all.filter (fun c => (is c).dSetup != (was c).dSetup)
  { s with
    m := m'
    dial := fun c => s.dial c && (is c).dDown == (was c).dDown
    timer := fun c => (s.timer c || (is c).wSetup != (was c).wSetup) && (is c).wDown == (was c).wDown
    table := if g.client then
        ups.foldl (fun t c => t.filter (fun e => e.1 != g.addr c) ++ [(g.addr c, c)])
          (s.table.filter (fun e => downs.all (fun c => g.addr c != e.1)))
      else s.table }

/-- stop(), network.h:266: stop_workers, conn.h:558-579. -/
def stop (g : Cfg) (s : RSt) : RSt :=
  { hooks g s { s.m with st := finalize s.m.st
                         poll := fun c => s.m.poll c && ((finalize s.m.st).conn c).wDown == (s.m.st.conn c).wDown } with phase := .stopped }

/-- The effect of a step, without the destructions; `none` when it cannot happen. -/
def effect (g : Cfg) (s : RSt) : RAct → Option RSt
  | .pool a =>
    match a with
    | .connect .. | .user .. | .readable .. => none
    | .terminate c =>
      -- terminate(conn), conn.h:630-638, by the program, also after stop
      if s.user c != 0 && s.phase != .destroyed then (mstep g.pool s.m (.pool a)).map (hooks g s) else none
    | .exec w _ => if s.phase = .running ∧ w ∈ workers g then (mstep g.pool s.m (.pool a)).map (hooks g s) else none
    | _ => if s.phase = .running then (mstep g.pool s.m (.pool a)).map (hooks g s) else none
  | .dial fd ok give =>
    if s.phase = .running then
      (mstep g.pool s.m (.pool (.connect fd ok))).map (fun m' =>
        let s1 := hooks g s m'
        { s1 with
          dial := if ok then upd s1.dial s.m.st.n true else s1.dial
          user := if give then upd s1.user s.m.st.n (s1.user s.m.st.n + 1) else s1.user })
    else none
  | .told r keep =>
    if s.phase = .destroyed then none
    else match s.m.st.uq with
    | [] => none
    | u :: _ => (mstep g.pool s.m (.pool (.user r))).map (fun m' =>
        let s1 := hooks g s m'
        { s1 with user := if keep then upd s1.user u.c (s1.user u.c + 1) else s1.user })
  | .read c k full => if s.phase = .running then (mstep g.pool s.m (.read c k full)).map (hooks g s) else none
  | .retry c k full => if s.phase = .running then (mstep g.pool s.m (.retry c k full)).map (hooks g s) else none
  | .handle keep =>
    if s.phase = .running then
      match s.m.mq with
      | [] => none
      | c :: _ => (mstep g.pool s.m .handle).map (fun m' =>
        let s1 := hooks g s m'
        { s1 with user := if keep then upd s1.user c (s1.user c + 1) else s1.user })
    else none
  | .drop => if s.phase = .destroyed then none else (mstep g.pool s.m .drop).map (hooks g s)
  | .copy c => if s.user c != 0 then some { s with user := upd s.user c (s.user c + 1) } else none
  | .release c => if s.user c != 0 then some { s with user := upd s.user c (s.user c - 1) } else none
  | .stop => match s.phase with
    | .running => some (stop g s)
    | .stopped => some s
    | .destroyed => none
  | .destroy =>
    if s.phase = .destroyed then none
    else
      let s1 := if s.phase = .running then stop g s else s
      -- the members go: workers with their closures, the pool's table, the user's closures, the queue of messages, addr2conn
      some { s1 with
        m := { s1.m with st := { s1.m.st with pool := [], wq := fun _ => [], uq := [] }, mq := [] }
        table := []
        phase := .destroyed }

/-- One step: ~Conn runs for every connection whose last handle went away. -/
def rstep (g : Cfg) (s : RSt) (a : RAct) : Option RSt :=
  (effect g s a).map (fun s' =>
    { s' with
      gone := fun c => s.gone c + if held g s c && !held g s' c then 1 else 0
      bad := s.bad || (uses s a).any (fun c => s.gone c != 0) })

/-- A run. -/
def rrun (g : Cfg) : RSt → List RAct → Option RSt
  | s, [] => some s
  | s, a :: as => (rstep g s a).bind (fun s => rrun g s as)

/-- The states of a run, each with the step taken there. -/
def rtrace (g : Cfg) : RSt → List RAct → List (RSt × RAct)
  | _, [] => []
  | s, a :: as => (s, a) :: (match rstep g s a with
    | some s' => rtrace g s' as
    | none => [])

end ConnRef
end Salticidae
