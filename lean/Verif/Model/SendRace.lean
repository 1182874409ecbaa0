/-
send_msg(msg, peer) and send_msg(msg, client) look the connection up in a table that the dispatcher
changes, on the thread of the caller: include/salticidae/network.h:1337-1340, 984-989 (PeerNetwork),
1409-1414 (ClientNetwork).  Modelled step by step: the lock, the lookup, the copy of the handle (two pointers
read one after the other, then the count), the use of the connection, the release; and on the dispatcher's
side add_peer (1167-1186), del_peer (1256-1278), the assignment `old_conn = new_conn` of finish_handshake
(network.h:937, ref.h:331-338: a copy, two swaps, a release), ClientNetwork's hooks (1367-1382).

`peers = true` is the PeerNetwork: the caller and finish_handshake (via ping_handler, pong_handler:
network.h:1003, 1085) hold known_peers_lock shared, add_peer and del_peer hold it exclusively.
`peers = false` is the ClientNetwork: there is no lock.

Simplified: the control block of a handle (C44) is an atomic counter; a lookup in the hash table is
one step; the steps of the dispatcher other than that assignment are atomic; what is written to the
connection is left out (C87).
-/
namespace Salticidae
namespace SendRace

/-- An entry of the table: Peer::conn, or a node of addr2conn; a handle is a pointer to the object and one to the control block, ref.h:287-288. -/
structure Node where
  key : Nat
  alive : Bool
  obj : Nat
  ctl : Nat
  deriving DecidableEq, Repr

/-- Where a call of send_msg is; the key, then what it has read. -/
inductive SPc where
  | idle
  | locked (k : Nat)                 -- holds the lock (peers)
  | found (k n : Nat)                -- after find
  | objRead (k n o : Nat)            -- ref.h:305: `obj(other.obj)`
  | ctlRead (k n o c : Nat)          -- ref.h:305: `ctl(other.ctl)`
  | copied (k o c : Nat)             -- ref.h:306: `add_ref`
  | wrote (k c : Nat)                -- MsgNetwork::_send_msg has used the connection
  | released (k : Nat)               -- the temporary handle is gone; still locked
  deriving DecidableEq, Repr

/-- Where the dispatcher is in `old_conn = new_conn`; the entry and the handle `tmp` of ref.h:334. -/
inductive DPc where
  | idle
  | copied (n c : Nat)       -- `tmp` is a copy of the new handle
  | swapped (n o c : Nat)    -- the object pointers are swapped: `tmp` points at the old object
  | swapped2 (c : Nat)       -- both are: `tmp` is the old handle
  deriving DecidableEq, Repr

structure St where
  nodes : List Node            -- every entry there ever was
  nc : Nat                     -- number of connections made
  rc : Nat → Nat               -- reference counts
  live : Nat → Bool            -- the connection has not been deleted
  ext : Nat → Nat              -- handles elsewhere: the pool, the peer's other handles, closures, the user
  disp : DPc
  snd : List SPc               -- the threads that send
  sent : List (Nat × Nat × Option Nat)  -- ghost: key, connection used, connection of the key when it was looked up
  uaf : Bool                   -- a deleted entry or connection was used

/-- `k` threads. -/
def init (k : Nat) : St := ⟨[], 0, fun _ => 0, fun _ => false, fun _ => 0, .idle, List.replicate k .idle, [], false⟩

def upd {α : Type} (f : Nat → α) (i : Nat) (v : α) : Nat → α := fun j => if j = i then v else f j

/-- The entry of a key. -/
def find (s : St) (k : Nat) : Option Nat := s.nodes.findIdx? (fun x => x.alive && x.key == k)
/-- The connection of a key. -/
def cur (s : St) (k : Nat) : Option Nat := (find s k).bind (fun n => s.nodes[n]?.map (·.ctl))

/-- An access to a connection or its control block. -/
def touch (s : St) (c : Nat) : St := if s.live c then s else { s with uaf := true }
/-- add_ref, ref.h:182. -/
def addRef (s : St) (c : Nat) : St := { touch s c with rc := upd s.rc c (s.rc c + 1) }
/-- release_ref and the deletion, ref.h:184-190, 364-367. -/
def release (s : St) (c : Nat) : St :=
  { touch s c with rc := upd s.rc c (s.rc c - 1), live := if s.rc c = 1 then upd s.live c false else s.live }
/-- An access to an entry. -/
def touchNode (s : St) (n : Nat) : St :=
  if (s.nodes[n]?.map (·.alive)) = some true then s else { s with uaf := true }

/-- The thread holds known_peers_lock. -/
def SPc.holds : SPc → Bool
  | .idle => false
  | _ => true
/-- The thread has found the entry and not yet got a reference of its own, ref.h:304-307 (clients: has not yet used the connection). -/
def SPc.looking : SPc → Bool
  | .found _ _ => true
  | .objRead _ _ _ => true
  | .ctlRead _ _ _ _ => true
  | _ => false
/-- Some thread holds the lock. -/
def readers (s : St) : Bool := s.snd.any SPc.holds

inductive Act where
  | create              -- a connection is made: one handle, the pool's
  | dup (c : Nat)       -- a handle is copied
  | drop (c : Nat)      -- a handle is dropped
  | add (k : Nat)       -- peers: add_peer; the entry gets a connection of its own
  | setup (k c : Nat)   -- clients: on_dispatcher_setup
  | del (k : Nat)       -- peers: del_peer; clients: on_dispatcher_teardown
  | assign (k c : Nat)  -- peers: finish_handshake begins `old_conn = new_conn`
  | dstep               -- the dispatcher goes on with it
  | call (i k : Nat)    -- thread i calls send_msg
  | sstep (i : Nat)     -- thread i goes on
  deriving DecidableEq, Repr

/-- Removing an entry: its handle is dropped. -/
def erase (s : St) (n : Nat) : St :=
  match s.nodes[n]? with
  | some x => release { s with nodes := s.nodes.set n { x with alive := false } } x.ctl
  | none => s

/-- One step; `none` when it cannot happen. -/
def step (peers : Bool) (s : St) : Act → Option St
  | .create => some { s with nc := s.nc + 1, rc := upd s.rc s.nc 1, live := upd s.live s.nc true, ext := upd s.ext s.nc 1 }
  | .dup c => if s.ext c = 0 then none else some { addRef s c with ext := upd s.ext c (s.ext c + 1) }
  | .drop c => if s.ext c = 0 then none else some { release s c with ext := upd s.ext c (s.ext c - 1) }
  | .add k =>
    if peers = true ∧ s.disp = .idle ∧ readers s = false ∧ find s k = none then
      some { s with
        nc := s.nc + 1, rc := upd s.rc s.nc 1, live := upd s.live s.nc true
        nodes := s.nodes ++ [⟨k, true, s.nc, s.nc⟩] }
    else none
  | .setup k c =>
    if peers = false ∧ s.ext c ≠ 0 then
      let s1 := match find s k with
        | some n => erase s n
        | none => s
      let s2 := addRef s1 c
      some { s2 with nodes := s2.nodes ++ [⟨k, true, c, c⟩] }
    else none
  | .del k =>
    if s.disp = .idle ∧ (peers = true → readers s = false) then
      match find s k with
      | some n => some (erase s n)
      | none => none
    else none
  | .assign k c =>
    if peers = true ∧ s.disp = .idle ∧ s.ext c ≠ 0 then
      match find s k with
      | some n => some { addRef s c with disp := .copied n c }
      | none => none
    else none
  | .dstep =>
    match s.disp with
    | .idle => none
    | .copied n c =>
      match s.nodes[n]? with
      | some x => some { s with nodes := s.nodes.set n { x with obj := c }, disp := .swapped n x.obj c }
      | none => none
    | .swapped n _ c =>
      match s.nodes[n]? with
      | some x => some { s with nodes := s.nodes.set n { x with ctl := c }, disp := .swapped2 x.ctl }
      | none => none
    | .swapped2 c => some { release s c with disp := .idle }
  | .call i k =>
    match s.snd[i]? with
    | some .idle =>
      if peers then some { s with snd := s.snd.set i (.locked k) }
      else match find s k with
        | some n => some { s with snd := s.snd.set i (.found k n) }
        | none => some s              -- throws
    | _ => none
  | .sstep i =>
    match s.snd[i]? with
    | none => none
    | some .idle => none
    | some (.locked k) =>
      match find s k with
      | some n => some { s with snd := s.snd.set i (.found k n) }
      | none => some { s with snd := s.snd.set i (.released k) }   -- throws
    | some (.found k n) =>
      match s.nodes[n]? with
      | some x => some { touchNode s n with snd := s.snd.set i (.objRead k n x.obj) }
      | none => none
    | some (.objRead k n o) =>
      if peers then
        match s.nodes[n]? with
        | some x => some { touchNode s n with snd := s.snd.set i (.ctlRead k n o x.ctl) }
        | none => none
      else some { touch s o with snd := s.snd.set i .idle, sent := s.sent ++ [(k, o, cur s k)] }   -- by reference: no handle is copied
    | some (.ctlRead k _ o c) =>
      some { addRef s c with snd := s.snd.set i (.copied k o c), sent := s.sent ++ [(k, o, cur s k)] }
    | some (.copied k o c) => some { touch s o with snd := s.snd.set i (.wrote k c) }
    | some (.wrote k c) => some { release s c with snd := s.snd.set i (.released k) }
    | some (.released _) => some { s with snd := s.snd.set i .idle }

def run (peers : Bool) : St → List Act → Option St
  | s, [] => some s
  | s, a :: as => (step peers s a).bind (fun s => run peers s as)

/-- The states of a run, each with the step taken there. -/
def trace (peers : Bool) : St → List Act → List (St × Act)
  | _, [] => []
  | s, a :: as => (s, a) :: (match step peers s a with
    | some s' => trace peers s' as
    | none => [])

end SendRace
end Salticidae
