import Verif.Model.Pool
/-!
Messages on top of the life of connections: what the user's thread sees of a message network.  The
connections are those of Model/Pool; added here are the queue `incoming_msgs` between the workers and
the user's thread (include/salticidae/network.h:130-131, 208-237), the timer of a connection that found
the queue full (network.h:83, 137-155) and the order in which the user's thread runs the connection
callback (update_conn, include/salticidae/conn.h:211-238) and the handlers.

Both run on the user's event loop, from two event sources: the ThreadCall `user_tcall` (conn.h:155, 515) and
the event descriptor of `incoming_msgs`.  The loop may serve them in any order.

Simplified: a message is only the connection it came from (its bytes are in Model/Msg and
Model/ConnIO); how many complete messages a read gives is arbitrary; a failed retry of the timer changes
nothing and is not a step; the burst size only decides when the loop turns to other events.
-/
namespace Salticidae
namespace PoolMsg
open Pool

/-- What the user's thread runs. -/
inductive Ev where
  | cb (c : Nat) (connected : Bool)  -- conn_cb(conn, connected), conn.h:213
  | msg (c : Nat)                    -- a handler is called with a message of c, network.h:230
  deriving DecidableEq, Repr

/-- A message network. -/
structure MSt where
  st : St
  mq : List Nat        -- incoming_msgs, network.h:131: the connections the messages came from
  poll : Nat → Bool    -- ev_enqueue_poll is set and `msg` waits in the connection, network.h:83, 681-683
  log : List Ev        -- ghost: what the user's thread has run

/-- A started network. -/
def minit : MSt := ⟨init, [], fun _ => false, []⟩

inductive MAct where
  | pool (a : Act)                          -- anything of Model/Pool
  | read (c k : Nat) (full : Bool)          -- worker: the socket is readable; k messages are enqueued; full: then one is refused
  | retry (c k : Nat) (full : Bool)         -- worker: the timer; the waiting message is accepted, then k more; full: then one is refused
  | handle                                  -- user's thread: the handler of the next message
  | drop                                    -- user's thread: no handler for its opcode, or the network is being stopped
  deriving DecidableEq, Repr

/-- What a step of the pool shows to the user: update_conn, conn.h:212-213. -/
def told (s : St) : Act → List Ev
  | .user _ => match s.uq with
    | [] => []
    | u :: _ => [.cb u.c u.connected]
  | _ => []

/-- After a step of the pool: on_worker_teardown has cleared the timer of the connection, network.h:151-155. -/
def after (s : MSt) (a : Act) (st' : St) : MSt :=
  { s with
    st := st'
    poll := fun c => s.poll c && (st'.conn c).wDown == (s.st.conn c).wDown
    log := s.log ++ told s.st a }

/-- One step; `none` when it cannot happen. -/
def mstep (g : Cfg) (s : MSt) : MAct → Option MSt
  | .pool a => (step g s.st a).map (after s a)
  | .read c k full =>
    -- _recv_data, then on_read, network.h:649-690, which returns at once while `msg_sleep`
    (step g s.st (.readable c)).map (fun st' =>
      let s1 := after s (.readable c) st'
      if (s.st.conn c).recvData && !s.poll c then
        { s1 with mq := s1.mq ++ List.replicate k c, poll := upd s1.poll c full }
      else s1)
  | .retry c k full =>
    -- network.h:140-149
    if s.poll c then some { s with mq := s.mq ++ c :: List.replicate k c, poll := upd s.poll c full } else none
  | .handle =>
    -- network.h:213-231
    match s.mq with
    | [] => none
    | c :: ms => some { s with mq := ms, log := s.log ++ [.msg c] }
  | .drop =>
    -- network.h:213, 218-220
    match s.mq with
    | [] => none
    | _ :: ms => some { s with mq := ms }

/-- A run. -/
def mrun (g : Cfg) : MSt → List MAct → Option MSt
  | s, [] => some s
  | s, a :: as => (mstep g s a).bind (fun s => mrun g s as)

end PoolMsg
end Salticidae
