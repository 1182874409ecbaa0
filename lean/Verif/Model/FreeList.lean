/-
Model of FreeList, include/salticidae/queue.h:14-88, for any number of threads and nodes.

Every access to a shared variable is one step (sequentially consistent interleaving).  A weak compare-exchange may fail for no
reason: the environment's choice `ch = false`.  A thread is identified by a number and so is a node; nodes are created with `new` in
increasing order.  The operations are `release_ref`, `push` and `pop`, and taking a reference as MPMCQueue does it (queue.h:115-118).

Ghost (not in the code, and never read by the rest): `phase`, `holders`, `held`, `list`, `log`, `bad`.  `bad` is set when a caller breaks the
rules: it pushes a node that is not in use, or releases a reference it does not hold.  The steps of the program are the same then.

Simplified: memory is sequentially consistent (the code uses relaxed, acquire and release accesses); the reference count does not wrap around.
-/
namespace Salticidae
namespace FreeList

/-- Update of a function at a point. -/
def upd {α : Type} (f : Nat → α) (i : Nat) (x : α) : Nat → α := fun j => if j = i then x else f j

/-- FreeList::Node, queue.h:16-22. -/
structure Node where
  next : Option Nat
  refcnt : Nat
  freed : Bool
  deriving DecidableEq, Repr

/-- Ghost: where a node is. -/
inductive Phase where
  | used               -- with a user, outside of the list
  | leaving (i : Nat)  -- thread i is in push and has not dropped the user's reference
  | pending            -- pushed; someone holds a reference
  | putting (i : Nat)  -- thread i, which has dropped the last reference, is putting it in the list
  | entering (i : Nat) -- it is in the list, its count is still 0
  | listed             -- in the list
  deriving DecidableEq, Repr

/-- What follows a release_ref. -/
inductive K where
  | ret           -- the operation returns
  | again         -- next round of pop
  | got (u : Nat) -- pop returns u
  deriving DecidableEq, Repr

/-- Result of an operation. -/
inductive Res where
  | none | ok | failed | empty | popped (u : Nat)
  deriving DecidableEq, Repr

/-- Where a thread is in an operation. -/
inductive Pc where
  | ret (r : Res)                              -- in none
  | ref1 (u : Nat)                             -- queue.h:115
  | ref2 (u n : Nat)                           -- 117
  | push (u : Nat)                             -- 51
  | rel (u : Nat) (base : Bool) (k : K)        -- 33; base: called by push
  | put1 (u : Nat) (k : K)                     -- 36
  | put2 (u : Nat) (t : Option Nat) (k : K)    -- 39
  | put3 (u : Nat) (t : Option Nat) (k : K)    -- 41
  | put4 (u : Nat) (k : K)                     -- 44
  | pop1                                       -- 59
  | pop2 (u : Nat)                             -- 62
  | pop3 (u n : Nat)                           -- 67
  | pop4 (u : Nat)                             -- 72
  | pop5 (u : Nat) (nv : Option Nat)           -- 73
  deriving DecidableEq, Repr

/-- Ghost: what the callers did. -/
inductive Ev where
  | new (u : Nat) | push (u : Nat) | pop (u : Nat)
  deriving DecidableEq, Repr

structure St where
  node : Nat → Node
  alloc : Nat                -- number of nodes created
  top : Option Nat
  pc : Nat → Pc
  phase : Nat → Phase
  holders : Nat → List Nat   -- threads holding a reference, with multiplicity
  held : Nat → List Nat      -- references each caller holds
  list : List Nat
  log : List Ev
  bad : Bool

/-- queue.h:20, 28. -/
def init : St where
  node := fun _ => ⟨none, 1, false⟩
  alloc := 0
  top := none
  pc := fun _ => .ret .none
  phase := fun _ => .used
  holders := fun _ => []
  held := fun _ => []
  list := []
  log := []
  bad := false

def St.setPc (s : St) (i : Nat) (p : Pc) : St := { s with pc := upd s.pc i p }
def St.setCnt (s : St) (u n : Nat) : St := { s with node := upd s.node u { s.node u with refcnt := n } }
def St.setNext (s : St) (u : Nat) (t : Option Nat) : St := { s with node := upd s.node u { s.node u with next := t } }
/-- queue.h:51, 148. -/
def St.setFreed (s : St) (u : Nat) (b : Bool) : St := { s with node := upd s.node u { s.node u with freed := b } }
def St.setPhase (s : St) (u : Nat) (p : Phase) : St := { s with phase := upd s.phase u p }
def St.addHolder (s : St) (i u : Nat) : St := { s with holders := upd s.holders u (i :: s.holders u) }
def St.delHolder (s : St) (i u : Nat) : St := { s with holders := upd s.holders u ((s.holders u).erase i) }

/-- After release_ref. -/
def K.pc : K → Pc
  | .ret => .ret .none
  | .again => .pop1
  | .got u => .ret (.popped u)

/-- fetch_sub, queue.h:33. -/
def release (s : St) (i u : Nat) (base : Bool) (k : K) : St :=
  let n := (s.node u).refcnt
  let s := s.setCnt u (n - 1)
  let s := if base then s.setPhase u .pending else s.delHolder i u
  if n ≠ 1 then s.setPc i k.pc else (s.setPhase u (.putting i)).setPc i (.put1 u k)

/-- One step of thread i inside an operation. -/
def micro (s : St) (i : Nat) (ch : Bool) : Option St :=
  match s.pc i with
  | .ret _ => none
  | .ref1 u => some (s.setPc i (if (s.node u).refcnt = 0 then .ret .failed else .ref2 u (s.node u).refcnt))
  | .ref2 u n =>
    some (if ch && (s.node u).refcnt == n then
      { (((s.setCnt u (n + 1)).addHolder i u).setPc i (.ret .ok)) with held := upd s.held i (u :: s.held i) }
    else s.setPc i (.ret .failed))
  | .push u => some ((s.setFreed u true).setPc i (.rel u true .ret))
  | .rel u b k => some (release s i u b k)
  | .put1 u k => some (s.setPc i (.put2 u s.top k))
  | .put2 u t k => some ((s.setNext u t).setPc i (.put3 u t k))
  | .put3 u t k =>
    some (if ch && s.top == t then
      (St.setPhase { s with top := some u, list := u :: s.list } u (.entering i)).setPc i (.put4 u k)
    else s.setPc i (.put1 u k))
  | .put4 u k => some (((s.setCnt u 1).setPhase u .listed).setPc i k.pc)
  | .pop1 =>
    some (match s.top with
      | none => s.setPc i (.ret .empty)
      | some u => s.setPc i (.pop2 u))
  | .pop2 u => some (s.setPc i (if (s.node u).refcnt = 0 then .pop1 else .pop3 u (s.node u).refcnt))
  | .pop3 u n =>
    some (if ch && (s.node u).refcnt == n then ((s.setCnt u (n + 1)).addHolder i u).setPc i (.pop4 u) else s.setPc i .pop1)
  | .pop4 u => some (s.setPc i (.pop5 u (s.node u).next))
  | .pop5 u nv =>
    some (if ch && s.top == some u then
      (St.setPhase { s with top := nv, list := s.list.tail, log := s.log ++ [.pop u] } u .used).setPc i (.rel u false (.got u))
    else s.setPc i (.rel u false .again))

inductive Op where
  | new
  | ref (u : Nat)
  | push (u : Nat)
  | release (u : Nat)
  | pop
  deriving DecidableEq, Repr

/-- Thread i calls an operation (or creates a node). -/
def call (s : St) (i : Nat) : Op → St
  | .new => { s with alloc := s.alloc + 1, log := s.log ++ [.new s.alloc], pc := upd s.pc i (.ret (.popped s.alloc)) }
  | .ref u => s.setPc i (.ref1 u)
  | .push u =>
    let s := if s.phase u = .used ∧ u < s.alloc then s else { s with bad := true }
    (St.setPhase { s with log := s.log ++ [.push u] } u (.leaving i)).setPc i (.push u)
  | .release u =>
    let s := if u ∈ s.held i then s else { s with bad := true }
    { s with held := upd s.held i ((s.held i).erase u), pc := upd s.pc i (.rel u false .ret) }
  | .pop => s.setPc i .pop1

def St.idle (s : St) (i : Nat) : Bool :=
  match s.pc i with
  | .ret _ => true
  | _ => false

/-- A history: calls by threads that are in no operation, and steps of threads that are. -/
inductive Act where
  | call (i : Nat) (op : Op)
  | micro (i : Nat) (ch : Bool)
  | clear (u : Nat)        -- freed.store(false) by a user, queue.h:148
  deriving DecidableEq, Repr

/-- A pointer a caller can have is one to a node that exists. -/
def Op.exists (s : St) : Op → Bool
  | .ref u => decide (u < s.alloc)
  | _ => true

def step (s : St) : Act → Option St
  | .call i op => if s.idle i && op.exists s then some (call s i op) else none
  | .micro i ch => micro s i ch
  | .clear u => if u < s.alloc then some (s.setFreed u false) else none

def run : St → List Act → Option St
  | s, [] => some s
  | s, a :: as => (step s a).bind (fun s => run s as)

end FreeList
end Salticidae
