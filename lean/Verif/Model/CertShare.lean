/-!
The certificate of a network.  `Config::tls_cert` keeps it as an `RcObj` (include/salticidae/conn.h:399, 465-468); copies of the Config and the networks made from it
share the object (conn.h:156, 499-505; network.h:1160).  The count of an RcObj is a plain size_t (ref.h:157-176): adding and taking away one is a load and a
store, between which other threads may run.

The handles to the object, by number, are the Configs and the networks that hold it.  The calls of the program that touch the count are those that copy a Config or make a network from it, those that destroy
either, and PeerNetwork::listen, which copies the handle and drops the copy (network.h:1156-1164).

Simplified: listen is executed by the dispatcher of the network while its caller waits for it; here the caller executes it, and no two calls of listen for one network are
executed at the same time.  A load and a store of the count are indivisible and sequentially consistent (by the C++ standard two of them at the same time, one a store, are undefined
behaviour already).  The count does not wrap.  Weak handles to certificates are not made.
-/
namespace Salticidae
namespace CertShare

/-- The calls: a Config is copied, or a network made from it, `s` being the Config and `d` the new one (conn.h:495-505); a Config or network is destroyed; listen (network.h:1156-1164). -/
inductive Op where
  | copy (s d : Nat)
  | drop (h : Nat)
  | listen (h : Nat)
  deriving DecidableEq, Repr

/-- Where a thread is. -/
inductive Pc where
  | idle
  | inc (o : Op)             -- ref_cnt++ (ref.h:160): the load
  | inc' (o : Op) (r : Nat)  -- and the store
  | use (o : Op)             -- the certificate is used: use_cert (conn.h:505), _get_peer_id (network.h:1161)
  | dec (o : Op)             -- --ref_cnt (ref.h:163): the load
  | dec' (o : Op) (r : Nat)  -- the store, and what depends on it (163-166, 356-362)
  deriving DecidableEq, Repr

structure St where
  cnt : Nat          -- ref_cnt
  live : Bool        -- the control block is allocated
  dead : Nat         -- how often the certificate has been destroyed
  held : List Nat    -- the Configs and networks that have a handle
  th : Nat → Pc
  bad : Bool         -- the control block or the certificate has been used after it was freed, or the count taken below 0

/-- Config 0 has been given the certificate. -/
def init : St := ⟨1, true, 0, [0], fun _ => .idle, false⟩

/-- The call a thread is executing. -/
def Pc.op : Pc → Option Op
  | .idle => none
  | .inc o | .inc' o _ | .use o | .dec o | .dec' o _ => some o

/-- Does a call that is being executed use the Config or network `h`? -/
def Op.about (h : Nat) : Op → Bool
  | .copy s d => s == h || d == h
  | .drop x | .listen x => x == h

/-- What a program may call while `o` is being executed by another thread: it does not destroy what `o` uses, nor use what `o` destroys or has not made yet; the dispatcher
executes one call of listen after the other. -/
def Op.allows (o : Op) : Op → Bool
  | .copy s d => match o with
    | .copy _ d' => d' != s && !o.about d
    | .drop x => x != s && x != d
    | .listen x => x != d
  | .drop h => !o.about h
  | .listen h => match o with
    | .copy _ d' => d' != h
    | .drop x | .listen x => x != h

/-- A program calls only for what it has. -/
def Op.ok (held : List Nat) : Op → Bool
  | .copy s d => held.contains s && !held.contains d
  | .drop h | .listen h => held.contains h

inductive Act where
  | call (j : Nat) (o : Op)  -- thread j makes a call
  | go (j : Nat)             -- thread j goes on
  deriving DecidableEq, Repr

def setTh (s : St) (j : Nat) (p : Pc) : St := { s with th := fun k => if k = j then p else s.th k }

/-- One step of a program with `n` threads; `none` when it cannot happen. -/
def step (n : Nat) (s : St) : Act → Option St
  | .call j o =>
    if j < n ∧ s.th j = .idle ∧ o.ok s.held = true ∧ (∀ k < n, ∀ o' ∈ (s.th k).op, o'.allows o = true) then
      some (setTh s j (match o with
        | .drop _ => .dec o
        | _ => .inc o))
    else none
  | .go j =>
    if j < n then
      match s.th j with
      | .idle => none
      | .inc o => some { setTh s j (.inc' o s.cnt) with bad := s.bad || !s.live }
      | .inc' o r => some { setTh s j (.use o) with cnt := r + 1, bad := s.bad || !s.live }
      | .use o =>
        let bad := s.bad || s.dead != 0
        match o with
        | .copy _ d => some { setTh s j .idle with held := s.held ++ [d], bad := bad }
        | _ => some { setTh s j (.dec o) with bad := bad }
      | .dec o => some { setTh s j (.dec' o s.cnt) with bad := s.bad || !s.live }
      | .dec' o r =>
        let last := r == 1
        some { setTh s j .idle with
          cnt := r - 1
          live := s.live && !last
          dead := if last then s.dead + 1 else s.dead
          held := match o with
            | .drop h => s.held.filter (· != h)
            | _ => s.held
          bad := s.bad || !s.live || r == 0 }
    else none

/-- A run. -/
def run (n : Nat) : St → List Act → Option St
  | s, [] => some s
  | s, a :: as => (step n s a).bind (fun s => run n s as)

end CertShare
end Salticidae
