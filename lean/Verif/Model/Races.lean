import Verif.Model.Pool
import Verif.Spec.Races
/-
Which thread reads and writes which part of a connection: the pool of Model/Pool, each step also
recording what it touches.  The parts that are not atomic and not a thread-safe queue are, per connection
(conn.h:76-104):

* `info`: fd, cpool, mode, addr, recv_chunk_size, max_recv_buff_size (what get_addr, get_mode, get_pool
  and operator std::string read);
* `worker`: the pointer to the worker;
* `sock`: "initialized and destroyed by the worker": ev_socket, ready_send, ready_recv, send_data_func,
  recv_data_func, tls, recv_buffer, the registration of the send buffer's handler, the message being
  parsed and the poll timer of MsgNetwork::Conn (network.h:78-85);
* `evconn`: "initialized and destroyed by the dispatcher": ev_connect;
* `cert`: peer_cert (what get_peer_cert reads).

Closures are handed over through ThreadCall: the event that executes a closure waited for the event that
posted it (that the queue publishes what it carries is C95's subject).  Each waiting closure is
kept with the index of the event that posted it.

Simplified: a socket event or closure is one event of its thread; the user's loop and the thread that calls
connect_sync and stop are one thread; `terminate` may be called by any thread and is taken to be ordered
after nothing.  Not recorded: `terminated` and the counters (atomic), the pool's own tables (dispatcher
only; read by stop after the join), fields of the peer layer.
-/
namespace Salticidae
namespace Races
open Pool (Cfg Task Upd)

inductive Thread where
  | w (i : Nat)      -- a worker; 0 is the dispatcher
  | user
  | other (k : Nat)  -- some thread of the program
  deriving DecidableEq, Repr

inductive Loc where
  | info
  | worker
  | sock
  | evconn
  | cert
  deriving DecidableEq, Repr

abbrev Ev := Spec.Races.Ev Thread (Nat × Loc)

structure St where
  pool : Pool.St
  log : List Ev
  tq : Nat → List (Task × Nat)   -- the closures of `pool.wq` with the events that posted them
  tu : List (Upd × Nat)          -- those of `pool.uq`
  born : Nat → Nat               -- the event that created a connection
  held : Nat → Bool              -- connect_sync has returned the connection to the user
  stopped : Bool

def init : St := ⟨Pool.init, [], fun _ => [], [], fun _ => 0, fun _ => false, false⟩

/-- The thread that serves a connection's socket: the event was created with that worker's EventContext,
conn.h:289. -/
def sockThread (s : Pool.St) (c n : Nat) : Thread :=
  match (s.conn c).worker with
  | some w => .w w
  | none => .other n

def all (c : Nat) : List (Nat × Loc) := [(c, .info), (c, .worker), (c, .sock), (c, .evconn), (c, .cert)]

/-- What executing a closure touches. -/
def taskReads (g : Cfg) (s : Pool.St) (fail : Bool) : Task → List (Nat × Loc)
  | .feed c => [(c, .info), (c, .worker)]                        -- conn.h:300-332
  | .setup c => [(c, .info), (c, .cert)] ++ if fail then [(c, .worker)] else []   -- conn.h:315-320, the hooks read address, mode and certificate
  | .wterm c => if (s.conn c).term then [] else [(c, .worker)]     -- conn.cpp:277, conn.h:187
  | .dterm c => if (s.conn c).term then [] else [(c, .worker), (c, .info)]  -- conn.cpp:294-297, 438-450
  | .userTerm c => [(c, .worker)]                                -- conn.cpp:289
  | .del c => [(c, .info)]                                       -- conn.cpp:438-450
  | .approve c r => if (s.conn c).term || (g.tls && r) then [] else if g.tls then [(c, .worker)] else []  -- conn.h:219-234
def taskWrites (s : Pool.St) : Task → List (Nat × Loc)
  | .feed c => [(c, .sock)]                                      -- conn.h:289-312
  | .setup _ => []
  | .wterm c => if (s.conn c).term then [] else [(c, .sock)]       -- conn.h:186-191
  | .dterm c => if (s.conn c).term then [] else [(c, .sock), (c, .evconn)]  -- conn.h:186-191, conn.cpp:447-448
  | .userTerm _ => []
  | .del c => [(c, .evconn), (c, .sock)]                         -- conn.cpp:447-448
  | .approve c _ => if (s.conn c).term then [] else [(c, .sock)]   -- conn.h:222-224, 233

/-- The event of a step of the pool; `n` is its index. -/
def event (g : Cfg) (r : St) (n : Nat) : Pool.Act → Ev
  | .accept _ => { thread := .w 0, reads := [], writes := all r.pool.n }      -- conn.h:117-125, conn.cpp:316-330
  | .acceptFail => { thread := .w 0 }
  | .listen => { thread := .w 0 }
  | .connect _ ok => { thread := .w 0, reads := if ok then [] else [(r.pool.n, .worker)], writes := all r.pool.n }  -- conn.cpp:404-434
  | .connReady c => { thread := .w 0, reads := [(c, .info)], writes := [(c, .evconn), (c, .worker)] }  -- conn.cpp:338-344
  | .connFail c _ => { thread := .w 0, reads := [(c, .info), (c, .worker)], writes := [(c, .evconn)] }  -- conn.cpp:346-356
  | .terminate _ => { thread := .other n }                            -- conn.h:630: only queues a closure
  | .exec w fail =>
    match r.tq w with
    | [] => { thread := .w w }
    | (t, p) :: _ => { thread := .w w, waited := some p, reads := taskReads g r.pool fail t, writes := taskWrites r.pool t }
  | .user _ =>
    match r.tu with
    | [] => { thread := .user }
    | (u, p) :: _ => { thread := .user, waited := some p, reads := [(u.c, .info), (u.c, .cert)] ++ if u.connected then [(u.c, .worker)] else [] }  -- conn.h:212-234; the callback may read the connection
  | .readable c => { thread := sockThread r.pool c n, reads := [(c, .info), (c, .worker)], writes := [(c, .sock)] }  -- conn.cpp:104-150
  | .writable c => { thread := sockThread r.pool c n, reads := [(c, .info)], writes := [(c, .sock)] }  -- conn.cpp:63-102
  | .hsDone c => { thread := sockThread r.pool c n, reads := [(c, .info), (c, .worker)], writes := [(c, .sock), (c, .cert)] }  -- conn.cpp:240-265
  | .ioError c => { thread := sockThread r.pool c n, reads := [(c, .info), (c, .worker)], writes := [(c, .sock)] }  -- conn.cpp:64-68, conn.h:296-299
  | .sendBuf c => { thread := sockThread r.pool c n, reads := [], writes := [(c, .sock)] }  -- conn.h:270-283

/-- A queue with its tags after a step: what was in it (`base`), then what the step `n` added. -/
def retag {α : Type} (n : Nat) (base : List (α × Nat)) (q : List α) : List (α × Nat) :=
  base ++ (q.drop base.length).map (fun t => (t, n))

/-- The event of stop_workers, conn.h:558-579: after the joins every connection left in the pool is torn down. -/
def stopEvent (r : St) : Ev where
  thread := .user
  joined := true
  reads := r.pool.pool.flatMap (fun e => [(e.2, .info), (e.2, .worker)])
  writes := r.pool.pool.flatMap (fun e => [(e.2, .sock), (e.2, .evconn)])

/-- What the program can do. -/
inductive Act where
  | pool (a : Pool.Act)
  | sync (c : Nat)       -- connect_sync returns the connection, conn.h:593-602
  | getInfo (c : Nat)    -- get_addr, get_mode, get_pool, operator std::string
  | getCert (c : Nat)    -- get_peer_cert
  | stop                 -- stop_workers, conn.h:558-579
  deriving DecidableEq, Repr

/-- After `stop` only the user's loop still executes closures. -/
def mayRun (r : St) : Pool.Act → Bool
  | .user _ => true
  | .terminate _ => true
  | _ => !r.stopped

/-- The user has been given the connection. -/
def has (r : St) (c : Nat) : Bool := r.held c || !(r.pool.conn c).cbs.isEmpty

/-- The closures of a worker (of the user's loop) that are still waiting once the step has taken its own. -/
def left (r : St) (a : Pool.Act) (w : Nat) : List (Task × Nat) :=
  match a with
  | .exec w' _ => if w' = w then (r.tq w).tail else r.tq w
  | _ => r.tq w
def leftU (r : St) (a : Pool.Act) : List (Upd × Nat) :=
  match a with
  | .user _ => r.tu.tail
  | _ => r.tu

/-- After the pool's step `a` to `s`. -/
def next (g : Cfg) (r : St) (a : Pool.Act) (s : Pool.St) : St :=
  { r with
    pool := s
    log := r.log ++ [event g r r.log.length a]
    tq := fun w => retag r.log.length (left r a w) (s.wq w)
    tu := retag r.log.length (leftU r a) s.uq
    born := if s.n = r.pool.n then r.born else Pool.upd r.born r.pool.n r.log.length }

def step (g : Cfg) (r : St) : Act → Option St
  | .pool a => if mayRun r a then (Pool.step g r.pool a).map (next g r a) else none
  | .sync c =>
    if c < r.pool.n ∧ (r.pool.conn c).active = true then
      some { r with log := r.log ++ [{ thread := .user, waited := some (r.born c) }], held := Pool.upd r.held c true }
    else none
  | .getInfo c =>
    if c < r.pool.n ∧ has r c = true then some { r with log := r.log ++ [{ thread := .user, reads := [(c, .info)] }] } else none
  | .getCert c =>
    if c < r.pool.n ∧ has r c = true then some { r with log := r.log ++ [{ thread := .user, reads := [(c, .cert)] }] } else none
  | .stop =>
    if r.stopped then none
    else some { r with
      pool := Pool.finalize r.pool
      log := r.log ++ [stopEvent r]
      stopped := true }

def run (g : Cfg) : St → List Act → Option St
  | r, [] => some r
  | r, a :: as => (step g r a).bind (fun r => run g r as)

/-- The states of a run, each with the action taken there. -/
def trace (g : Cfg) : St → List Act → List (St × Act)
  | _, [] => []
  | r, a :: as => (r, a) :: (match step g r a with
    | some r' => trace g r' as
    | none => [])

end Races
end Salticidae
