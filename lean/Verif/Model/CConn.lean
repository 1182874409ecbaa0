import Verif.Model.ConnRef
/-!
The handles to connections in the C interface, src/network.cpp: a `msgnetwork_conn_t *` or `clientnetwork_conn_t *` that a function returns points to an ArcObj on the heap, one of the
handles of the program of Model/ConnRef; the `const msgnetwork_conn_t *` that a callback is given points to a variable of the library and is valid during the callback.

Simplified: the three types of handles are one; in a callback the program makes at most one copy of the handle it is given (it can copy the copy); of the
functions that look at a connection only the access to it is kept; PeerNetworks are not included (as in Model/ConnRef).
-/
namespace Salticidae
namespace CConn
open ConnRef Pool

/-- The network; the allocator: it may return any address that is not in use. -/
structure Cfg where
  net : ConnRef.Cfg
  pick : List Nat → Nat
  fresh : ∀ l, pick l ∉ l

structure St where
  r : RSt
  hs : List (Nat × Nat)   -- the handles on the heap: address, connection
  bad : Bool              -- a call of the program touched a connection that was destroyed

/-- A started network. -/
def init : St := ⟨rinit, [], false⟩

/-- What the library does by itself, and the calls without handles: those of Model/ConnRef that give the program no handle, take none and use none. -/
def internal : RAct → Bool
  | .pool (.terminate _) => false
  | .pool _ => true
  | .dial _ _ give => !give
  | .told _ keep => !keep
  | .handle keep => !keep
  | .copy _ | .release _ => false
  | _ => true

inductive Act where
  | sys (a : RAct)
  | connect (fd : Nat) (ok : Bool)   -- msgnetwork_connect_sync, network.cpp:91-96
  | told (r : Bool)                  -- the connection callback (133-140), in which the program copies the handle
  | handle                           -- a message callback (123-131), likewise
  | copy (p : Nat)                   -- msgnetwork_conn_copy (102-104), clientnetwork_conn_copy (360-362), and the conversions (352-358)
  | free (p : Nat)                   -- msgnetwork_conn_free (107), clientnetwork_conn_free (364)
  | look (p : Nat)                   -- msgnetwork_conn_get_net, _get_mode, _get_addr, _get_peer_cert, _is_terminated (158-176), msgnetwork_send_msg (82-84)
  | terminate (p : Nat)              -- msgnetwork_terminate (119-121)
  deriving DecidableEq, Repr

/-- The connection that the handle at `p` refers to. -/
def deref (s : St) (p : Nat) : Option Nat := (s.hs.find? (fun e => e.1 = p)).map (·.2)

/-- `new conn_t(...)` for the connection `c`. -/
def alloc (g : Cfg) (s : St) (c : Nat) : List (Nat × Nat) := (g.pick (s.hs.map (·.1)), c) :: s.hs

/-- A call that touches the connection of a handle. -/
def touched (s : St) (c : Nat) : Bool := s.bad || s.r.gone c != 0

/-- One step; `none`: it cannot happen, or the program passes a pointer that it was not given or has freed. -/
def step (g : Cfg) (s : St) : Act → Option St
  | .sys a => if internal a then (rstep g.net s.r a).map (fun r => { s with r := r }) else none
  | .connect fd ok => (rstep g.net s.r (.dial fd ok true)).map (fun r => { s with r := r, hs := alloc g s s.r.m.st.n })
  | .told b => match s.r.m.st.uq with
    | [] => none
    | u :: _ => (rstep g.net s.r (.told b true)).map (fun r => { s with r := r, hs := alloc g s u.c })
  | .handle => match s.r.m.mq with
    | [] => none
    | c :: _ => (rstep g.net s.r (.handle true)).map (fun r => { s with r := r, hs := alloc g s c })
  | .copy p => (deref s p).bind (fun c => (rstep g.net s.r (.copy c)).map (fun r =>
      { r := r, hs := alloc g s c, bad := touched s c }))
  | .free p => (deref s p).bind (fun c => (rstep g.net s.r (.release c)).map (fun r =>
      { r := r, hs := s.hs.filter (fun e => e.1 ≠ p), bad := touched s c }))
  | .look p => (deref s p).map (fun c => { s with bad := touched s c })
  | .terminate p => (deref s p).bind (fun c => (rstep g.net s.r (.pool (.terminate c))).map (fun r => { s with r := r, bad := touched s c }))

/-- A run. -/
def run (g : Cfg) : St → List Act → Option St
  | s, [] => some s
  | s, a :: as => (step g s a).bind (fun s => run g s as)

end CConn
end Salticidae
