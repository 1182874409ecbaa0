/-
Model of one node of PeerNetwork, include/salticidae/network.h:346-645 and 784-1362: everything that the
dispatcher does with peers, as a machine whose steps are the closures and events that it executes, one at
a time (they all run on the dispatcher's thread).

Addresses are numbers, 0 is the null address; PeerIds and certificates are numbers.  Random draws, what
the remote sends, and when connections are accepted, established or lost are inputs.  A Peer object is never
reused: `del_peer` marks it freed, and following a pointer to it afterwards, calling through a null
connection, or reading one of the two bools that the constructor leaves uninitialised, sets `ub`.

Simplified: the bytes are in Model/ConnIO and Model/PeerBuf; a termination that has been requested, or any
failure of a connection, is executed by the worker at some later step (Model/Pool); times are in
Model/Heartbeat; `listen` is called once, before anything else; `_connect` and RAND_bytes succeed.  `assert` is
compiled out (the build is a release build with NDEBUG).
-/
namespace Salticidae
namespace PeerNet

/-- `passive_nonce`, network.h:361. -/
def passiveNonce : Nat := 65535

/-- MsgPing and MsgPong, network.h:403-427: a heartbeat has a null address. -/
structure Hs where
  claimed : Nat
  nonce : Nat
  deriving DecidableEq, Repr

/-- A message given to `send_msg` by this code. -/
inductive Msg where
  | ping (h : Hs)
  | pong (h : Hs)
  deriving DecidableEq, Repr

/-- MsgPing(), MsgPong(), network.h:408, 421. -/
def heartbeat : Hs := ⟨0, 0⟩

/-- A connection: PeerNetwork::Conn, network.h:364-394, with the parts of ConnPool::Conn used here. -/
structure Conn where
  addr : Nat            -- get_addr()
  cert : Nat            -- get_peer_cert()
  active : Bool
  manual : Bool
  peer : Option Nat     -- the Peer object pointed to
  setUp : Bool          -- on_dispatcher_setup has run
  asked : Bool          -- its termination was requested by this code
  term : Bool           -- is_terminated(), set by the worker
  torn : Bool           -- on_dispatcher_teardown has run
  out : List Msg        -- messages sent, in order
  deriving DecidableEq, Repr

inductive PState where
  | disconnected | connected | reset
  deriving DecidableEq, Repr

/-- A Peer object, network.h:429-495. -/
structure Peer where
  id : Nat
  addr : Nat
  nonce : Nat
  conn : Nat
  ntry : Int
  curNtry : Int
  retryInit : Bool          -- ev_retry_timer is not empty
  retryArmed : Bool
  chosen : Option Nat
  inbound : Option Nat
  outbound : Option Nat
  pingArmed : Bool
  pingTimerOk : Option Bool -- none: uninitialised
  pongOk : Option Bool
  preempt : Option Hs
  state : PState
  freed : Bool
  dials : Nat               -- ghost: calls of start_active_conn
  deriving DecidableEq, Repr

/-- An error given to recoverable_error. -/
inductive Err where
  | alreadyExists | notExist | notReady | notMatch
  deriving DecidableEq, Repr

/-- The node. -/
structure St where
  n : Nat
  conns : Nat → Conn
  m : Nat
  peers : Nat → Peer
  known : List (Nat × Nat)          -- PeerId ↦ Peer object
  pending : List (Nat × Nat)        -- address ↦ connection
  posted : List (Hs × Option Nat)   -- handshakes put off until the old connection is gone, network.h:855-861
  cbs : List (Nat × Bool)           -- calls of the peer callback
  unk : List (Nat × Nat)            -- calls of the unknown peer callback: claimed address, connection
  errs : List Err
  ub : Bool

/-- What is fixed for the node: identity mode and hash functions (network.h:324-330, 545-554), own address. -/
structure Cfg where
  certMode : Bool
  hashAddr : Nat → Nat
  hashCert : Nat → Nat
  listenAddr : Nat

def upd {α : Type} (f : Nat → α) (i : Nat) (v : α) : Nat → α := fun j => if j = i then v else f j

/-- A new connection, network.h:376 and conn.cpp:318-326, 404-412. -/
def newConn (addr cert : Nat) (active : Bool) : Conn := ⟨addr, cert, active, true, none, false, false, false, false, []⟩

/-- Peer's constructor, network.h:454-465, with the empty connection of add_peer (1175-1181), number `c`. -/
def newPeer (pid c : Nat) : Peer :=
  ⟨pid, 0, passiveNonce, c, 0, 0, false, false, none, none, none, false, none, none, none, .disconnected, false, 0⟩

/-- A started node. -/
def init : St := ⟨0, fun _ => newConn 0 0 false, 0, fun _ => newPeer 0 0, [], [], [], [], [], [], false⟩

def setConn (s : St) (c : Nat) (x : Conn) : St := { s with conns := upd s.conns c x }
def setPeer (s : St) (p : Nat) (x : Peer) : St := { s with peers := upd s.peers p x }

/-- `send_msg(msg, conn)`. -/
def send (s : St) (c : Nat) (m : Msg) : St := setConn s c { s.conns c with out := (s.conns c).out ++ [m] }

/-- `disp_terminate`, conn.cpp:288-299. -/
def dispTerminate (s : St) (c : Nat) : St := setConn s c { s.conns c with asked := true }

/-- `if (c) disp_terminate(c)`. -/
def dispTerminate? (s : St) : Option Nat → St
  | none => s
  | some c => dispTerminate s c

/-- `known_peers.find`. -/
def find (s : St) (pid : Nat) : Option Nat := (s.known.find? (fun e => e.1 = pid)).map (·.2)

/-- get_peer_id, network.h:545-554. -/
def pidOf (g : Cfg) (x : Conn) (addr : Nat) : Nat := if g.certMode then g.hashCert x.cert else g.hashAddr addr

/-- Peer::get_nonce, network.h:476-486: `draw` is the uint16_t given by RAND_bytes. -/
def getNonce (x : Peer) (draw : BitVec 16) : Peer := if x.nonce = 0 then { x with nonce := draw.toNat + 1 } else x

/-- Peer::reset_ping_timer and Peer::send_ping, network.h:882-895. -/
def resetSendPing (s : St) (p : Nat) : St :=
  let x := s.peers p
  let s1 := setPeer s p { x with pingArmed := true, pingTimerOk := some false, pongOk := some false }
  match x.chosen with
  | none => { s1 with ub := true }
  | some c => send s1 c (.ping heartbeat)

/-- `if (c) c->peer = nullptr`. -/
def unlink (s : St) : Option Nat → St
  | none => s
  | some c => setConn s c { s.conns c with peer := none }

/-- finish_handshake, network.h:908-953, for the chosen connection `c`. -/
def finishHandshake (s : St) (p c : Nat) : St :=
  let s := unlink s (s.peers p).outbound
  let s := setPeer s p { s.peers p with
    inbound := none, outbound := none, chosen := some c, state := .connected }
  let s := resetSendPing s p
  let old := (s.peers p).conn
  let s := setPeer s p { s.peers p with
    retryArmed := false, curNtry := (s.peers p).ntry, conn := c }
  let s := unlink s (some old)
  let s := setConn s c { s.conns c with peer := some p }
  { s with
    cbs := s.cbs ++ [(c, true)]
    pending := s.pending.filter (fun e => e.1 ≠ (s.conns c).addr) }

/-- The closure of ping_handler, network.h:996-1072. -/
def pingClosure (g : Cfg) (s : St) (c : Nat) (h : Hs) (draw : BitVec 16) : St :=
  if (s.conns c).term then s
  else if h.claimed = 0 then send s c (.pong heartbeat)
  else if (s.conns c).active then s
  else match find s (pidOf g (s.conns c) h.claimed) with
    | none => dispTerminate { s with unk := s.unk ++ [(h.claimed, c)] } c
    | some p =>
      if h.nonce = 0 then s
      else match (s.peers p).state with
        | .connected =>
          let s := setPeer s p { s.peers p with preempt := some h, inbound := some c, nonce := passiveNonce }
          dispTerminate s (s.peers p).conn
        | .reset => s
        | .disconnected =>
          let s := setPeer s p (getNonce (s.peers p) draw)
          let s := send s c (.pong ⟨g.listenAddr, (s.peers p).nonce⟩)
          let s := if (s.peers p).inbound = some c then s else dispTerminate? s (s.peers p).inbound
          let s := setPeer s p { s.peers p with inbound := some c }
          if h.nonce < (s.peers p).nonce ∨ (s.peers p).addr = 0 then finishHandshake s p c
          else dispTerminate s c

/-- The closure of pong_handler, network.h:1078-1152. -/
def pongClosure (g : Cfg) (s : St) (c : Nat) (h : Hs) (draw : BitVec 16) : St :=
  if (s.conns c).term then s
  else if h.claimed ≠ 0 then
    if !(s.conns c).active then s
    else match find s (pidOf g (s.conns c) (s.conns c).addr) with
      | none => dispTerminate s c
      | some p =>
        if (s.peers p).state ≠ .disconnected ∨ (s.peers p).addr ≠ h.claimed then s
        else
          let s := if (s.peers p).outbound = some c then s else dispTerminate? s (s.peers p).outbound
          let s := setPeer s p { s.peers p with outbound := some c }
          let s := setPeer s p (getNonce (s.peers p) draw)
          if (s.peers p).nonce < h.nonce then finishHandshake s p c
          else dispTerminate s c
  else match (s.conns c).peer with
    | none => s
    | some p =>
      if (s.peers p).freed then { s with ub := true }
      else
        let s := setPeer s p { s.peers p with pongOk := some true }
        match (s.peers p).pingTimerOk with
        | none => { s with ub := true }
        | some true => resetSendPing s p
        | some false => s

/-- on_dispatcher_setup, network.h:785-814 (the exception of 803 makes ConnPool call disp_terminate,
conn.h:318-326). -/
def setup (g : Cfg) (s : St) (c : Nat) (draw : BitVec 16) : St :=
  let s := setConn s c { s.conns c with setUp := true }
  let x := s.conns c
  if x.active then
    match find s (pidOf g x x.addr) with
    | none => if x.manual then send s c (.ping ⟨g.listenAddr, 0⟩) else dispTerminate s c
    | some p =>
      let s := setPeer s p (getNonce (s.peers p) draw)
      send s c (.ping ⟨g.listenAddr, (s.peers p).nonce⟩)
  else
    -- replace_pending_conn, network.h:956-969
    match s.pending.find? (fun e => e.1 = x.addr) with
    | none => { s with pending := s.pending ++ [(x.addr, c)] }
    | some e =>
      if e.2 = c then s
      else
        let s := dispTerminate s e.2
        { s with pending := s.pending.filter (fun e => e.1 ≠ x.addr) ++ [(x.addr, c)] }

/-- on_dispatcher_teardown, the state of the peer, network.h:836-852. -/
def disc (x : Peer) : Peer :=
  if x.state ≠ .disconnected then { x with state := .disconnected, outbound := none, pingArmed := false } else x

/-- on_dispatcher_teardown, the retry, network.h:866-878 (its state is never RESET at 873). -/
def backoff (x : Peer) : Peer :=
  let x := { x with inbound := none }
  let x := if x.curNtry > 0 then { x with curNtry := x.curNtry - 1 } else x
  if x.curNtry ≠ 0 then { x with nonce := 0, retryArmed := true } else { x with nonce := passiveNonce }

/-- on_dispatcher_teardown, network.h:817-879. -/
def teardown (s : St) (c : Nat) : St :=
  let k := s.conns c
  let s := { setConn s c { k with torn := true } with pending := s.pending.filter (fun e => e.1 ≠ k.addr) }
  match k.peer with
  | none => s
  | some p =>
    if k.active && k.manual then s
    else if (s.peers p).freed then { s with ub := true }
    else
      let x := disc (s.peers p)
      let s := { s with cbs := s.cbs ++ [(c, false)] }
      match x.preempt with
      | some h => setPeer { s with posted := s.posted ++ [(h, x.inbound)] } p { x with preempt := none, inbound := none }
      | none => { setPeer s p (backoff x) with ub := s.ub || ((backoff x).curNtry != 0 && !x.retryInit) }

/-- The closure of add_peer, network.h:1169-1186. -/
def addPeer (s : St) (pid : Nat) : St :=
  if (find s pid).isSome then { s with errs := s.errs ++ [.alreadyExists] }
  else
    { s with
      n := s.n + 1
      conns := upd s.conns s.n { newConn 0 0 false with peer := some s.m, setUp := true, term := true, torn := true }
      m := s.m + 1
      peers := upd s.peers s.m (newPeer pid s.n)
      known := s.known ++ [(pid, s.m)] }

/-- The closure of conn_peer, network.h:1192-1232. -/
def connPeer (s : St) (pid : Nat) (ntry : Int) : St :=
  match find s pid with
  | none => { s with errs := s.errs ++ [.notExist] }
  | some p =>
    let x := s.peers p
    if x.addr = 0 then { s with errs := s.errs ++ [.notReady] }
    else
      let x := { x with
        ntry := ntry, curNtry := ntry, inbound := none, outbound := none, pingArmed := false, nonce := 0
        retryInit := true, retryArmed := false }
      match x.state with
      | .disconnected => setPeer s p { x with retryArmed := ntry ≠ 0 }
      | .connected => dispTerminate (setPeer s p { x with state := .reset }) x.conn
      | .reset => setPeer s p x

/-- The closure of set_peer_addr, network.h:1238-1250. -/
def setPeerAddr (s : St) (pid addr : Nat) : St :=
  match find s pid with
  | none => { s with errs := s.errs ++ [.notExist] }
  | some p => setPeer s p { s.peers p with addr := addr }

/-- The closure of del_peer, network.h:1258-1275, with ~Peer, 489-492. -/
def delPeer (s : St) (pid : Nat) : St :=
  match find s pid with
  | none => { s with errs := s.errs ++ [.notExist] }
  | some p =>
    let x := s.peers p
    let s := unlink s (some x.conn)
    let s := dispTerminate s x.conn
    let s := dispTerminate? s x.inbound
    let s := dispTerminate? s x.outbound
    let s := unlink (unlink s x.inbound) x.outbound
    { setPeer s p { x with freed := true } with known := s.known.filter (fun e => e.1 ≠ pid) }

/-- The retry timer, network.h:1207-1213, with start_active_conn, 972-981. -/
def retryTimer (s : St) (p : Nat) : St :=
  let x := s.peers p
  let c := s.n
  let s := { s with
    n := s.n + 1
    conns := upd s.conns c { newConn x.addr 0 true with peer := some p, manual := false } }
  let s := dispTerminate? s x.outbound
  setPeer s p { x with outbound := some c, retryArmed := true, dials := x.dials + 1 }

/-- Peer::ping_timer, network.h:898-905 (the timer is one-shot). -/
def pingTimer (s : St) (p : Nat) : St :=
  let x := s.peers p
  let s := setPeer s p { x with pingTimerOk := some true, pingArmed := false }
  match x.pongOk with
  | none => { s with ub := true }
  | some true => resetSendPing s p
  | some false => s

/-- What can happen next. -/
inductive Act where
  | addPeer (pid : Nat)
  | delPeer (pid : Nat)
  | setAddr (pid addr : Nat)
  | connPeer (pid : Nat) (ntry : Int)
  | accept (addr cert : Nat)           -- a connection from outside
  | connect (addr : Nat)               -- the user calls connect(addr)
  | established (c : Nat) (cert : Nat) (draw : BitVec 16)  -- on_dispatcher_setup
  | ping (c : Nat) (h : Hs) (draw : BitVec 16)
  | pong (c : Nat) (h : Hs) (draw : BitVec 16)
  | deferred (draw : BitVec 16)        -- a handshake that was put off
  | lost (c : Nat)                     -- a worker sets `terminated`
  | teardown (c : Nat)
  | retry (p : Nat)
  | pingTimer (p : Nat)
  deriving DecidableEq, Repr

/-- One step; `none` when it cannot happen. -/
def step (g : Cfg) (s : St) : Act → Option St
  | .addPeer pid => some (addPeer s pid)
  | .delPeer pid => some (delPeer s pid)
  | .setAddr pid a => some (setPeerAddr s pid a)
  | .connPeer pid ntry => some (connPeer s pid ntry)
  | .accept a cert => if a = 0 then none else some { s with n := s.n + 1, conns := upd s.conns s.n (newConn a cert false) }
  | .connect a => some { s with n := s.n + 1, conns := upd s.conns s.n (newConn a 0 true) }
  | .established c cert draw =>
    if c < s.n ∧ (s.conns c).setUp = false ∧ (s.conns c).torn = false then
      some (setup g (setConn s c { s.conns c with cert := if (s.conns c).active then cert else (s.conns c).cert }) c draw)
    else none
  | .ping c h draw => if c < s.n ∧ (s.conns c).setUp = true then some (pingClosure g s c h draw) else none
  | .pong c h draw => if c < s.n ∧ (s.conns c).setUp = true then some (pongClosure g s c h draw) else none
  | .deferred draw =>
    match s.posted with
    | [] => none
    | (h, some c) :: rest => some (pingClosure g { s with posted := rest } c h draw)
    | (_, none) :: rest => some { s with posted := rest, ub := true }
  | .lost c => if c < s.n ∧ (s.conns c).term = false then some (setConn s c { s.conns c with term := true }) else none
  | .teardown c =>
    if c < s.n ∧ (s.conns c).term = true ∧ (s.conns c).torn = false then some (teardown s c) else none
  | .retry p => if p < s.m ∧ (s.peers p).freed = false ∧ (s.peers p).retryArmed = true then some (retryTimer s p) else none
  | .pingTimer p => if p < s.m ∧ (s.peers p).freed = false ∧ (s.peers p).pingArmed = true then some (pingTimer s p) else none

/-- A run. -/
def run (g : Cfg) : St → List Act → Option St
  | s, [] => some s
  | s, a :: as => (step g s a).bind (fun s => run g s as)

/-- The states of a run, each with the step taken there. -/
def trace (g : Cfg) : St → List Act → List (St × Act)
  | _, [] => []
  | s, a :: as => (s, a) :: (match step g s a with
    | some s' => trace g s' as
    | none => [])

/-- get_peer_conn, network.h:1280-1291, and the connection used by send_msg(pid), 984-989, 1338-1340. -/
def getPeerConn (s : St) (pid : Nat) : Option Nat := (find s pid).map (fun p => (s.peers p).conn)

/-- What `get_peer_id()` and `get_peer_addr()` of a connection give: the null values, those of a peer, or undefined behaviour. -/
inductive Named where
  | null
  | peer (id addr : Nat)
  | ub
  deriving DecidableEq, Repr

/-- Conn::get_peer_addr and Conn::get_peer_id, network.h:376-390, src/network.cpp:286-292: the dispatcher follows `peer`. -/
def named (s : St) (c : Nat) : Named :=
  match (s.conns c).peer with
  | none => .null
  | some p => if (s.peers p).freed then .ub else .peer (s.peers p).id (s.peers p).addr

/-- has_peer, network.h:1295-1301. -/
def hasPeer (s : St) (pid : Nat) : Bool := (find s pid).isSome

/-- What `get_npending` gives, network.h:1304-1309: a size_t is stored and read back as a `bool`
(little endian): its lowest byte, which is not a value of that type unless it is 0 or 1. -/
inductive BoolRead where
  | ok (n : Nat)
  | ub
  deriving DecidableEq, Repr
def readAsBool (n : Nat) : BoolRead := if n % 256 ≤ 1 then .ok (n % 256) else .ub
def getNpending (s : St) : BoolRead := readAsBool s.pending.length

/-- multicast_msg, network.h:1349-1362: `bufs c` is what has been written to connection `c`, `full c l` tells that
its send buffer, holding or having held `l`, refuses one more message (`MsgNet::_send_msg` gives false,
network.h:729-740).  Gives the buffers afterwards and the error reported to the error callback. -/
def multicast (s : St) (full : Nat → List Nat → Bool) (msg : Nat) :
    List Nat → (Nat → List Nat) → Bool → (Nat → List Nat) × Option Err
  | [], bufs, succ => (bufs, if succ then none else some .notReady)
  | pid :: pids, bufs, succ =>
    match getPeerConn s pid with
    | none => (bufs, some .notExist)
    | some c =>
      if full c (bufs c) then multicast s full msg pids bufs false
      else multicast s full msg pids (upd bufs c (bufs c ++ [msg])) succ

end PeerNet
end Salticidae
