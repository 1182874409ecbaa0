import Verif.Model.Bits
/-
Model of the calls that send a message and of what they tell their caller:
  include/salticidae/network.h:706-741 (MsgNetwork: `_send_msg`, `_send_msg_deferred`),
  include/salticidae/network.h:984-989 and 1311-1362 (PeerNetwork: `_send_msg`, `_send_msg_deferred`, `_multicast_msg`),
  include/salticidae/network.h:1387-1414 (ClientNetwork: `_send_msg`, `_send_msg_deferred`),
  include/salticidae/conn.h:145-147 (`write`), 163-170 (`gen_async_id`, `recoverable_error`),
  src/network.cpp:82-89, 296-313, 366-377 (the C functions).

Connections, peers and addresses are numbers; a message is the list of its serialized bytes (Model/Msg).  A send buffer is the list of
the segments in it (C34).

Simplified: a call is one step (Model/PeerBuf has the steps in between); whether a bounded buffer refuses a segment is
an input of the step (C35 says when it does), one answer for each write of a multicast; the maps of peers and
clients change in any way between the calls (C53, C57); the two ThreadCall queues are FIFO lists (C39, C40).
-/
namespace Salticidae
namespace SendApi

abbrev Seg := List Byte

/-- What a message is addressed to. -/
inductive Dest where
  | conn (c : Nat)
  | peer (pid : Nat)
  | client (addr : Nat)
  | peers (pids : List Nat)
  deriving DecidableEq, Repr

/-- The errors thrown: SALTI_ERROR_CONN_NOT_READY, SALTI_ERROR_PEER_NOT_EXIST, SALTI_ERROR_CLIENT_NOT_EXIST. -/
inductive Err where
  | connNotReady
  | peerNotExist
  | clientNotExist
  deriving DecidableEq, Repr

/-- `max_send_buff_size`, and whether the user has registered an error callback. -/
structure Cfg where
  maxSend : Nat
  errorCb : Bool

/-- A closure of a deferred call, network.h:713-720, 1320-1327, 1352-1360, 1393-1398. -/
structure Call where
  id : Nat
  dest : Dest
  msg : Seg
  deriving DecidableEq, Repr

structure St where
  buf : Nat → List Seg          -- send_buffer of each connection
  peers : List (Nat × Nat)      -- known_peers, with p->conn
  clients : List (Nat × Nat)    -- addr2conn
  ctr : BitVec 16               -- async_id
  disp : List Call              -- closures waiting in disp_tcall
  user : List (Err × Nat)       -- closures of recoverable_error waiting in user_tcall
  cbs : List (Err × Nat)        -- calls of error_cb so far

def init : St := ⟨fun _ => [], [], [], 0, [], [], []⟩

/-- `unordered_map::find`. -/
def lookup (m : List (Nat × Nat)) (k : Nat) : Option Nat := (m.find? (fun e => e.1 == k)).map (·.2)

/-- What a C++ function does: return, or throw. -/
inductive Answer where
  | ret (b : Bool)
  | thrown (e : Err)
  deriving DecidableEq, Repr

/-- `write`, conn.h:145-147: `room` is what a bounded buffer answers. -/
def write (g : Cfg) (s : St) (c : Nat) (m : Seg) (room : Bool) : St × Bool :=
  if room || g.maxSend == 0 then ({ s with buf := fun d => if d = c then s.buf c ++ [m] else s.buf d }, true) else (s, false)

/-- MsgNetwork::_send_msg, network.h:730-741. -/
def sendConn (g : Cfg) (s : St) (c : Nat) (m : Seg) (room : Bool) : St × Answer :=
  let r := write g s c m room
  (r.1, .ret r.2)

/-- PeerNetwork::_send_msg, network.h:1337-1340, and _get_peer_conn, 984-989. -/
def sendPeer (g : Cfg) (s : St) (pid : Nat) (m : Seg) (room : Bool) : St × Answer :=
  match lookup s.peers pid with
  | none => (s, .thrown .peerNotExist)
  | some c => sendConn g s c m room

/-- ClientNetwork::_send_msg, network.h:1409-1414. -/
def sendClient (g : Cfg) (s : St) (a : Nat) (m : Seg) (room : Bool) : St × Answer :=
  match lookup s.clients a with
  | none => (s, .thrown .clientNotExist)
  | some c => sendConn g s c m room

/-- The loop of _multicast_msg, network.h:1355-1357. -/
def castLoop (g : Cfg) (m : Seg) : St → List Nat → List Bool → Bool → St × Answer
  | s, [], _, succ => (s, .ret succ)
  | s, p :: ps, room, succ =>
    match lookup s.peers p with
    | none => (s, .thrown .peerNotExist)
    | some c =>
      let r := write g s c m (room.headD true)
      castLoop g m r.1 ps room.tail (succ && r.2)

/-- `if (!...) throw ...CONN_NOT_READY`, network.h:715-716, 1322-1323, 1358: what is thrown. -/
def check : St × Answer → St × Option Err
  | (t, .ret true) => (t, none)
  | (t, .ret false) => (t, some .connNotReady)
  | (t, .thrown e) => (t, some e)

/-- ClientNetwork, network.h:1395: no such test. -/
def noCheck : St × Answer → St × Option Err
  | (t, .ret _) => (t, none)
  | (t, .thrown e) => (t, some e)

/-- The body of a closure: what it throws, network.h:715-716, 1322-1323, 1354-1358, 1395. -/
def body (g : Cfg) (s : St) (k : Call) (room : List Bool) : St × Option Err :=
  match k.dest with
  | .conn c => check (sendConn g s c k.msg (room.headD true))
  | .peer p => check (sendPeer g s p k.msg (room.headD true))
  | .peers ps => check (castLoop g k.msg s ps room true)
  | .client a => noCheck (sendClient g s a k.msg (room.headD true))

/-- The catch clause: `recoverable_error`, conn.h:166-170. -/
def report (s : St) (id : Nat) : Option Err → St
  | none => s
  | some e => { s with user := s.user ++ [(e, id)] }

/-- The C functions `peernetwork_send_msg` and `clientnetwork_send_msg`, src/network.cpp:296-303 and 366-373. -/
def wrap : St × Answer → St × Answer
  | (t, .ret _) => (t, .ret true)
  | (t, .thrown _) => (t, .ret false)

inductive Act where
  | send (d : Dest) (m : Seg) (room : Bool)    -- send_msg
  | cSend (d : Dest) (m : Seg) (room : Bool)   -- the C function of the same name
  | defer (d : Dest) (m : Seg)                 -- send_msg_deferred, multicast_msg
  | dispatch (room : List Bool)                -- the dispatcher runs the next closure
  | notify                                     -- the user's loop runs the next closure
  | take (c : Nat)                             -- the worker of connection c takes a segment
  | peers (m : List (Nat × Nat))               -- the peers change
  | clients (m : List (Nat × Nat))             -- the clients change
  deriving DecidableEq, Repr

/-- What a call gives its caller. -/
inductive Ret where
  | none
  | res (r : Answer)
  | id (n : Nat)
  deriving DecidableEq, Repr

/-- Next state and result; `none`: the action is not possible. -/
def step (g : Cfg) (s : St) : Act → Option (St × Ret)
  | .send (.conn c) m room => let r := sendConn g s c m room; some (r.1, .res r.2)
  | .send (.peer p) m room => let r := sendPeer g s p m room; some (r.1, .res r.2)
  | .send (.client a) m room => let r := sendClient g s a m room; some (r.1, .res r.2)
  | .send (.peers _) _ _ => none  -- there is no such function
  | .cSend (.conn c) m room => let r := sendConn g s c m room; some (r.1, .res r.2)  -- src/network.cpp:82-84
  | .cSend (.peer p) m room => let r := wrap (sendPeer g s p m room); some (r.1, .res r.2)
  | .cSend (.client a) m room => let r := wrap (sendClient g s a m room); some (r.1, .res r.2)
  | .cSend (.peers _) _ _ => none
  | .defer d m =>
    some ({ s with ctr := s.ctr + 1, disp := s.disp ++ [⟨s.ctr.toNat, d, m⟩] }, .id s.ctr.toNat)
  | .dispatch room =>
    match s.disp with
    | [] => none
    | k :: ks =>
      let r := body g { s with disp := ks } k room
      some (report r.1 k.id r.2, .none)
  | .notify =>
    match s.user with
    | [] => none
    | e :: es => some ({ s with user := es, cbs := if g.errorCb then s.cbs ++ [e] else s.cbs }, .none)
  | .take c => some ({ s with buf := fun d => if d = c then (s.buf c).tail else s.buf d }, .none)
  | .peers m => some ({ s with peers := m }, .none)
  | .clients m => some ({ s with clients := m }, .none)

def run (g : Cfg) : St → List Act → Option St
  | s, [] => some s
  | s, a :: as => (step g s a).bind (fun x => run g x.1 as)

/-- The steps of a run: the state in which each was made. -/
def trace (g : Cfg) : St → List Act → List (St × Act)
  | _, [] => []
  | s, a :: as => (s, a) :: (match step g s a with | none => [] | some x => trace g x.1 as)

end SendApi
end Salticidae
