import Verif.Model.FreeList
/-
Model of MPMCQueue and MPSCQueue, include/salticidae/queue.h:90-290, for any number of threads and any block size `B` (MPMCQ_SIZE, queue.h:90, is 4096).

Every access to a shared variable is one step (sequentially consistent interleaving); the operations of the free list are those of
Model/FreeList, step by step.  A weak compare-exchange may fail for no reason (`ch = false`).  Blocks are numbered, as the nodes of the free list, which they are.

Ghost (not in the code, never read by it): `log` and the fields after it.  `log` records the calls, their returns, and the points where they take effect:
 * enqueue: when the tail index is advanced (line 155); a refused one: when the free list is found empty (134),
 * a dequeue that finds nothing: when it reads the tail index (249, 211) or the next pointer (253, 215) that make it return false,
 * a dequeue: when it advances the head index (259, 224),
 * rewind: when it moves the head index back (287).

Simplified: memory is sequentially consistent; allocation does not fail; destruction of elements is not modelled (an element of a block that was never written is `none`; a
read element stays, where the code has the moved-from value); head and tail indices are numbers (in the code 32 bits, and at most MPMCQ_SIZE).
-/
namespace Salticidae
namespace Queue
open FreeList (upd)

def upd2 {α : Type} (f : Nat → Nat → α) (b k : Nat) (x : α) : Nat → Nat → α := fun c j => if c = b ∧ j = k then x else f c j

/-- Block, queue.h:95-102 (without the part of FreeList::Node). -/
structure Blk (α : Type) where
  head : Nat
  tail : Nat
  elem : Nat → Option α
  avail : Nat → Bool
  next : Option Nat

/-- An operation. -/
inductive Call (α : Type) where
  | enq (e : α) (unb : Bool)  -- enqueue(e, unb), try_enqueue(e)
  | deq                       -- MPSCQueue::try_dequeue
  | rewind (e : α)            -- MPSCQueue::rewind
  | deqM                      -- MPMCQueue::try_dequeue
  | add                       -- one round of the loop of set_capacity
  deriving DecidableEq, Repr

/-- Result of the last operation. -/
inductive Ret (α : Type) where
  | none | yes | no | val (v : Option α)
  deriving DecidableEq, Repr

/-- Where a thread is.  When a name is followed by lines of an operation of the free list, that operation is running. -/
inductive Pc (α : Type) where
  | idle (r : Ret α)
  -- _enqueue
  | e1 (e : α) (unb : Bool)                    -- 114
  | e2 (e : α) (unb : Bool) (t : Nat)          -- 115-118, then 119
  | e5 (e : α) (unb : Bool) (t : Nat)          -- 124
  | e6 (e : α) (unb : Bool) (t : Nat)          -- 127
  | e7 (e : α) (unb : Bool) (t : Nat)          -- 130 (pop)
  | e8 (e : α) (unb : Bool) (t n : Nat)        -- 139
  | e9 (e : α) (unb : Bool) (t n : Nat)        -- 140
  | e10 (e : α) (unb : Bool) (t n : Nat)       -- 141
  | e11 (e : α) (unb : Bool) (t n : Nat)       -- 143
  | e12 (e : α) (unb : Bool) (t n : Nat)       -- 147
  | e13 (e : α) (unb : Bool) (t n : Nat)       -- 148
  | e14 (e : α) (unb : Bool) (t : Nat)         -- 144 (push), 151
  | eR (e : α) (unb : Bool)                    -- 121, 151, 162 (release_ref), next round
  | eF                                         -- 134 (release_ref), return false
  | e15 (e : α) (unb : Bool) (t tt : Nat)      -- 155
  | e16 (e : α) (unb : Bool) (t tt : Nat)      -- 157
  | e17 (e : α) (unb : Bool) (t tt : Nat)      -- 158
  | e18 (t : Nat)                              -- 159
  | eD                                         -- 159 (release_ref), return true
  -- MPSCQueue::try_dequeue
  | d1                                         -- 247
  | d2 (h : Nat)                               -- 248
  | d3 (h hh : Nat)                            -- 249
  | d4 (h : Nat)                               -- 253
  | d5 (h n : Nat)                             -- 255
  | d6                                         -- 256 (push), next round
  | d7 (h hh : Nat)                            -- 259
  | d8 (h hh : Nat)                            -- 260
  | d9 (h hh : Nat)                            -- 262
  | d10 (h hh : Nat) (v : Option α)            -- 263
  -- rewind
  | w1 (e : α)                                 -- 271
  | w2 (e : α) (h : Nat)                       -- 272
  | w3 (e : α) (h : Nat)                       -- 276 (pop)
  | w4 (e : α) (h n : Nat)                     -- 278
  | w5 (e : α) (h n : Nat)                     -- 279
  | w6 (e : α) (h n : Nat)                     -- 280
  | w7 (e : α) (n : Nat)                       -- 281
  | w8 (e : α)                                 -- 283
  | w9 (e : α) (h : Nat)                       -- 284
  | w10 (e : α) (h hh : Nat)                   -- 285
  | w11 (e : α) (h hh : Nat)                   -- 286
  | w12 (e : α) (h hh : Nat)                   -- 287
  -- MPMCQueue::try_dequeue
  | m1                                         -- 204
  | m2 (h : Nat)                               -- 205-208, then 210
  | m3 (h hh : Nat)                            -- 211
  | m4 (h : Nat)                               -- 215
  | m5 (h n : Nat)                             -- 218
  | m5p (h : Nat)                              -- 219 (push)
  | m6 (h hh : Nat)                            -- 224
  | m7 (h hh : Nat)                            -- 226
  | m8 (h hh : Nat)                            -- 228
  | m9 (h hh : Nat) (v : Option α)             -- 229
  | m10 (h : Nat) (v : Option α)               -- 230
  | mR                                         -- 220, 233 (release_ref), next round
  | mF                                         -- 214, 216 (release_ref), return false
  | mD (v : Option α)                          -- 230 (release_ref), return true
  -- set_capacity
  | a1 (n : Nat)                               -- 188
  | a2                                         -- 188 (push)
  deriving DecidableEq, Repr

/-- Calls, returns, and operations taking effect. -/
inductive Ev (α : Type) where
  | call (i : Nat) (c : Call α)
  | ret (i : Nat) (r : Ret α)
  | enq (i : Nat) (e : α)
  | refuse (i : Nat)
  | take (i : Nat)
  | empty (i : Nat)
  | rewind (i : Nat) (e : α)
  deriving DecidableEq, Repr

/-- Ghost: who has a block. -/
inductive Stat where
  | free           -- the free list (or it does not exist)
  | priv (i : Nat) -- thread i
  | chain          -- the queue
  deriving DecidableEq, Repr

structure St (α : Type) where
  fl : FreeList.St            -- blks, and the FreeList::Node part of the blocks
  blk : Nat → Blk α
  qhead : Nat                 -- head
  qtail : Nat                 -- tail
  pc : Nat → Pc α
  log : List (Ev α)
  chain : List Nat            -- blocks of the queue
  stat : Nat → Stat
  seen : Nat → Bool           -- the block has been the queue's tail, or in the free list
  slot : Nat → Nat → Option α -- element that goes into a slot
  wr : Nat → Nat → Option Nat -- thread that is going to write a slot
  rd : Nat → Nat → Option Nat -- thread that is going to read a slot
  lk : Option (Nat × Nat)     -- thread that has linked a block and not yet set the tail to it
  hid : Nat → Option Nat      -- thread that has linked the block, which nobody else can write to yet

/-- MPMCQueue(), queue.h:171-175. -/
def init (α : Type) : St α where
  fl := { FreeList.init with alloc := 1 }
  blk := fun _ => ⟨0, 0, fun _ => none, fun _ => false, none⟩
  qhead := 0
  qtail := 0
  pc := fun _ => .idle .none
  log := []
  chain := [0]
  stat := fun u => if u = 0 then .chain else .free
  seen := fun u => u == 0
  slot := fun _ _ => none
  wr := fun _ _ => none
  rd := fun _ _ => none
  lk := none
  hid := fun _ => none

variable {α : Type}

def St.setPc (s : St α) (i : Nat) (p : Pc α) : St α := { s with pc := upd s.pc i p }
def St.call (s : St α) (i : Nat) (op : FreeList.Op) : St α := { s with fl := FreeList.call s.fl i op }
def St.setBlk (s : St α) (b : Nat) (x : Blk α) : St α := { s with blk := upd s.blk b x }
def St.setStat (s : St α) (b : Nat) (x : Stat) : St α := { s with stat := upd s.stat b x }
def St.rcd (s : St α) (e : Ev α) : St α := { s with log := s.log ++ [e] }

/-- The operation returns. -/
def St.ret (s : St α) (i : Nat) (r : Ret α) : St α := (s.rcd (.ret i r)).setPc i (.idle r)

/-- Start of an operation. -/
def start (c : Call α) : Pc α :=
  match c with
  | .enq e unb => .e1 e unb
  | .deq => .d1
  | .rewind e => .w1 e
  | .deqM => .m1
  | .add => .a1 0

/-- blks.pop has returned: the block, or a new one (queue.h:130-138, 276-277). -/
def gotBlk (s : St α) (i : Nat) (k : Nat → Pc α) : FreeList.Res → Option (St α)
  | .popped n => some (s.setPc i (k n))
  | .empty => some (((s.call i .new).setStat s.fl.alloc (.priv i)).setPc i (k s.fl.alloc))
  | _ => none

/-- _enqueue, queue.h:111-165: one step of thread i. -/
def enqStep (B : Nat) (s : St α) (i : Nat) (ch : Bool) (r : FreeList.Res) : Pc α → Option (St α)
  | .e1 e unb => some ((s.call i (.ref s.qtail)).setPc i (.e2 e unb s.qtail))
  | .e2 e unb t =>
    if r = .ok then
      if (s.fl.node t).freed then some ((s.call i (.release t)).setPc i (.eR e unb))
      else some (s.setPc i (.e5 e unb t))
    else some (s.setPc i (.e1 e unb))
  | .e5 e unb t =>
    some (s.setPc i (if (s.blk t).tail ≥ B then .e6 e unb t else .e15 e unb t (s.blk t).tail))
  | .e6 e unb t =>
    if (s.blk t).next = none then some ((s.call i .pop).setPc i (.e7 e unb t))
    else some ((s.call i (.release t)).setPc i (.eR e unb))
  | .e7 e unb t =>
    if r = .empty ∧ unb = false then some (((s.rcd (.refuse i)).call i (.release t)).setPc i .eF)
    else gotBlk s i (.e8 e unb t) r
  | .e8 e unb t n => some ((s.setBlk n { s.blk n with head := 0 }).setPc i (.e9 e unb t n))
  | .e9 e unb t n => some ((s.setBlk n { s.blk n with tail := 0 }).setPc i (.e10 e unb t n))
  | .e10 e unb t n => some ((s.setBlk n { s.blk n with next := none }).setPc i (.e11 e unb t n))
  | .e11 e unb t n =>
    if ch && (s.blk t).next == none then
      some ((St.setStat { s.setBlk t { s.blk t with next := some n } with chain := s.chain ++ [n], lk := some (i, n), hid := upd s.hid n (some i) } n .chain).setPc i (.e12 e unb t n))
    else some (((s.setStat n .free).call i (.push n)).setPc i (.e14 e unb t))
  | .e12 e unb t n => some (St.setPc { s with qtail := n, lk := none, seen := upd s.seen n true, hid := upd s.hid n (if (s.fl.node n).freed then some i else none) } i (.e13 e unb t n))
  | .e13 e unb t n => some (St.setPc { s with fl := s.fl.setFreed n false, hid := upd s.hid n none } i (.e14 e unb t))
  | .e14 e unb t => some ((s.call i (.release t)).setPc i (.eR e unb))
  | .eR e unb => some (s.setPc i (.e1 e unb))
  | .eF => some (s.ret i .no)
  | .e15 e unb t tt =>
    if ch && (s.blk t).tail == tt then
      some ({ (s.setBlk t { s.blk t with tail := tt + 1 }).rcd (.enq i e) with
        slot := upd2 s.slot t tt (some e)
        wr := upd2 s.wr t tt (some i)
        pc := upd s.pc i (.e16 e unb t tt) })
    else some ((s.call i (.release t)).setPc i (.eR e unb))
  | .e16 e unb t tt => some ((s.setBlk t { s.blk t with elem := upd (s.blk t).elem tt (some e) }).setPc i (.e17 e unb t tt))
  | .e17 _ _ t tt =>
    some (St.setPc { s.setBlk t { s.blk t with avail := upd (s.blk t).avail tt true } with wr := upd2 s.wr t tt none } i (.e18 t))
  | .e18 t => some ((s.call i (.release t)).setPc i .eD)
  | .eD => some (s.ret i .yes)
  | _ => none

/-- MPSCQueue::try_dequeue, queue.h:244-267. -/
def deqStep (B : Nat) (s : St α) (i : Nat) : Pc α → Option (St α)
  | .d1 => some (s.setPc i (.d2 s.qhead))
  | .d2 h => some (s.setPc i (.d3 h (s.blk h).head))
  | .d3 h hh =>
    if hh ≥ (s.blk h).tail then
      if (s.blk h).tail < B then some ((s.rcd (.empty i)).ret i .no)
      else some (s.setPc i (.d4 h))
    else some (s.setPc i (.d7 h hh))
  | .d4 h =>
    match (s.blk h).next with
    | none => some ((s.rcd (.empty i)).ret i .no)
    | some n => some (s.setPc i (.d5 h n))
  | .d5 h n => some (((St.setStat { s with qhead := n, chain := s.chain.tail } h .free).call i (.push h)).setPc i .d6)
  | .d6 => some (s.setPc i .d1)
  | .d7 h hh =>
    some ({ (s.setBlk h { s.blk h with head := hh + 1 }).rcd (.take i) with rd := upd2 s.rd h hh (some i), pc := upd s.pc i (.d8 h hh) })
  | .d8 h hh => some (s.setPc i (if (s.blk h).avail hh then .d9 h hh else .d8 h hh))
  | .d9 h hh => some (s.setPc i (.d10 h hh ((s.blk h).elem hh)))
  | .d10 h hh v =>
    some (St.ret { s.setBlk h { s.blk h with avail := upd (s.blk h).avail hh false } with rd := upd2 s.rd h hh none } i (.val v))
  | _ => none

/-- MPSCQueue::rewind, queue.h:269-289. -/
def rewStep (B : Nat) (s : St α) (i : Nat) (r : FreeList.Res) : Pc α → Option (St α)
  | .w1 e => some (s.setPc i (.w2 e s.qhead))
  | .w2 e h =>
    if (s.blk h).head = 0 then some ((s.call i .pop).setPc i (.w3 e h)) else some (s.setPc i (.w8 e))
  | .w3 e h => gotBlk s i (.w4 e h) r
  | .w4 e h n => some ((s.setBlk n { s.blk n with head := B }).setPc i (.w5 e h n))
  | .w5 e h n => some ((s.setBlk n { s.blk n with tail := B }).setPc i (.w6 e h n))
  | .w6 e h n => some ((s.setBlk n { s.blk n with next := some h }).setPc i (.w7 e n))
  | .w7 e n => some ((St.setStat { s with qhead := n, chain := n :: s.chain } n .chain).setPc i (.w8 e))
  | .w8 e => some (s.setPc i (.w9 e s.qhead))
  | .w9 e h => some (s.setPc i (.w10 e h ((s.blk h).head - 1)))
  | .w10 e h hh => some ((s.setBlk h { s.blk h with elem := upd (s.blk h).elem hh (some e) }).setPc i (.w11 e h hh))
  | .w11 e h hh =>
    some ({ s.setBlk h { s.blk h with avail := upd (s.blk h).avail hh true } with
      slot := upd2 s.slot h hh (some e)
      rd := upd2 s.rd h hh (some i)
      pc := upd s.pc i (.w12 e h hh) })
  | .w12 e h hh =>
    some (St.ret { (s.setBlk h { s.blk h with head := hh }).rcd (.rewind i e) with rd := upd2 s.rd h hh none } i .yes)
  | _ => none

/-- MPMCQueue::try_dequeue, queue.h:201-236. -/
def mpmcStep (B : Nat) (s : St α) (i : Nat) (ch : Bool) (r : FreeList.Res) : Pc α → Option (St α)
  | .m1 => some ((s.call i (.ref s.qhead)).setPc i (.m2 s.qhead))
  | .m2 h => if r = .ok then some (s.setPc i (.m3 h (s.blk h).head)) else some (s.setPc i .m1)
  | .m3 h hh =>
    if hh ≥ (s.blk h).tail then
      if (s.blk h).tail < B then some (((s.rcd (.empty i)).call i (.release h)).setPc i .mF)
      else some (s.setPc i (.m4 h))
    else some (s.setPc i (.m6 h hh))
  | .m4 h =>
    match (s.blk h).next with
    | none => some (((s.rcd (.empty i)).call i (.release h)).setPc i .mF)
    | some n => some (s.setPc i (.m5 h n))
  | .m5 h n =>
    if ch && s.qhead == h then
      some (((St.setStat { s with qhead := n, chain := s.chain.tail } h .free).call i (.push h)).setPc i (.m5p h))
    else some ((s.call i (.release h)).setPc i .mR)
  | .m5p h => some ((s.call i (.release h)).setPc i .mR)
  | .m6 h hh =>
    if ch && (s.blk h).head == hh then
      some ({ (s.setBlk h { s.blk h with head := hh + 1 }).rcd (.take i) with rd := upd2 s.rd h hh (some i), pc := upd s.pc i (.m7 h hh) })
    else some ((s.call i (.release h)).setPc i .mR)
  | .m7 h hh => some (s.setPc i (if (s.blk h).avail hh then .m8 h hh else .m7 h hh))
  | .m8 h hh => some (s.setPc i (.m9 h hh ((s.blk h).elem hh)))
  | .m9 h hh v =>
    some (St.setPc { s.setBlk h { s.blk h with avail := upd (s.blk h).avail hh false } with rd := upd2 s.rd h hh none } i (.m10 h v))
  | .m10 h v => some ((s.call i (.release h)).setPc i (.mD v))
  | .mR => some (s.setPc i .m1)
  | .mF => some (s.ret i .no)
  | .mD v => some (s.ret i (.val v))
  | _ => none

/-- Rounds of the loop of set_capacity(c), queue.h:186-188. -/
def rounds (B c : Nat) : Nat := max (c / B) 1

/-- One round of set_capacity, queue.h:188. -/
def addStep (s : St α) (i : Nat) : Pc α → Option (St α)
  | .a1 _ =>
    let n := s.fl.alloc
    some (((s.call i .new).call i (.push n)).setPc i .a2)
  | .a2 => some (s.ret i .none)
  | _ => none

/-- A step of thread i outside of the free list's operations. -/
def localStep (B : Nat) (s : St α) (i : Nat) (ch : Bool) (r : FreeList.Res) : Option (St α) :=
  (((enqStep B s i ch r (s.pc i)).or (deqStep B s i (s.pc i))).or (rewStep B s i r (s.pc i))).or
    ((mpmcStep B s i ch r (s.pc i)).or (addStep s i (s.pc i)))

/-- Ghost: a block that has just been taken from the free list belongs to thread i; one that is marked as freed has been seen. -/
def afterMicro (s : St α) (i : Nat) (fl : FreeList.St) : St α :=
  { s with
    fl := fl
    stat := fun u => if s.fl.phase u ≠ .used ∧ fl.phase u = .used then .priv i else s.stat u
    seen := fun u => s.seen u || (s.fl.pc i == .push u) }

inductive Act (α : Type) where
  | start (i : Nat) (c : Call α)
  | go (i : Nat) (ch : Bool)
  deriving DecidableEq, Repr

def step (B : Nat) (s : St α) : Act α → Option (St α)
  | .start i c =>
    match s.pc i with
    | .idle _ => some ((s.rcd (.call i c)).setPc i (start c))
    | _ => none
  | .go i ch =>
    match s.fl.pc i with
    | .ret r => localStep B s i ch r
    | _ => (FreeList.micro s.fl i ch).map (afterMicro s i)

def run (B : Nat) : St α → List (Act α) → Option (St α)
  | s, [] => some s
  | s, a :: as => (step B s a).bind (fun s => run B s as)

def trace (B : Nat) : St α → List (Act α) → List (St α × Act α)
  | _, [] => []
  | s, a :: as => (s, a) :: (match step B s a with
    | some s' => trace B s' as
    | none => [])

end Queue
end Salticidae
