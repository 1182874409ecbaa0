import Verif.Model.Weak
/-
MPSCQueueEventDriven in the memory model of C++ (Model/Weak): one consumer, any number of producers.
  include/salticidae/queue.h:12-88 (FreeList), 95-164 (blocks, _enqueue), 240-265 (MPSCQueue::try_dequeue),
  include/salticidae/event.h:599-645 (MPSCQueueEventDriven).

A step is one access to a shared variable with the memory order of the code; which value a load reads, and where in the modification order a store goes, is
chosen by the step (`ts`).  Block `b` is the pointer `b + 1`, null is 0.

Simplified: MPMCQ_SIZE is a parameter; the head and tail index and the next pointer of a block fresh from `new` are 0 (the code leaves them indeterminate until they are stored);
elements are numbers; the file descriptor of NotifyFd is a counter that orders nothing; `func` dequeues until the queue is empty, or stops before.
-/
namespace Salticidae
namespace WQ
open Weak

inductive Loc where
  | head | tail | top | sig
  | bhead (b : Nat) | btail (b : Nat) | bnext (b : Nat)
  | refcnt (b : Nat) | freed (b : Nat) | fnext (b : Nat)
  | elem (b i : Nat) | avail (b i : Nat)
  deriving DecidableEq, Repr

/-- Initial values: queue.h:19, 26, 170-174, event.h:607. -/
def ini : Loc → Nat
  | .head => 1
  | .tail => 1
  | .sig => 1
  | .refcnt _ => 1
  | _ => 0

/-- What follows a `release_ref`. -/
inductive K where
  | retry (e : Nat)            -- next round of _enqueue
  | fin (i : Nat)              -- _enqueue returns true; the element went to place i
  | rel (e t : Nat)            -- release_ref(t), next round of _enqueue
  | pop (e t : Nat)            -- next round of pop
  | got (e t n : Nat)          -- pop gave n
  | deq                        -- next round of try_dequeue
  deriving DecidableEq, Repr

/-- Where a thread is; the comments give the lines of queue.h, and of event.h where it says so. -/
inductive Pc where
  | idle
  | e0 (e : Nat)                   -- 114
  | e1 (e t : Nat)                 -- 115
  | e2 (e t c : Nat)               -- 117
  | e3 (e t : Nat)                 -- 119
  | e4 (e t : Nat)                 -- 124
  | e5 (e t : Nat)                 -- 127
  | p0 (e t : Nat)                 -- 56
  | p1 (e t u : Nat)               -- 59
  | p2 (e t u c : Nat)             -- 64
  | p3 (e t u : Nat)               -- 69
  | p4 (e t u x : Nat)             -- 70
  | i1 (e t n : Nat)               -- 139
  | i2 (e t n : Nat)               -- 140
  | i3 (e t n : Nat)               -- 141
  | e9 (e t n : Nat)               -- 143
  | ea (e t n : Nat)               -- 147
  | eb (e t n : Nat)               -- 148
  | pu (u : Nat) (k : K)           -- 49
  | f0 (u : Nat) (k : K)           -- 32
  | f1 (u : Nat) (k : K)           -- 35
  | f2 (u : Nat) (k : K) (x : Nat) -- 38
  | f3 (u : Nat) (k : K) (x : Nat) -- 40
  | f4 (u : Nat) (k : K)           -- 43
  | ec (e t tt : Nat)              -- 155
  | ed (e t tt : Nat)              -- 157
  | ee (e t tt : Nat)              -- 158
  | x (i : Nat)                    -- event.h:636
  | nt                             -- event.h:639
  | c0                             -- event.h:614
  | c1                             -- event.h:622
  | d0                             -- 247
  | d1 (h : Nat)                   -- 248
  | d2 (h hh : Nat)                -- 249
  | d3 (h : Nat)                   -- 253
  | d4 (h n : Nat)                 -- 255
  | d5 (h hh : Nat)                -- 259
  | d6 (h hh : Nat)                -- 260
  | d7 (h hh : Nat)                -- 262
  | d8 (h hh : Nat)                -- 263
  | cn                             -- event.h:624
  deriving DecidableEq, Repr

structure Thr where
  view : View Loc
  pc : Pc
  deriving DecidableEq, Repr

structure St where
  mem : Mem Loc
  ths : List Thr          -- thread 0 is the consumer
  nblk : Nat              -- blocks made by `new`
  fd : Nat                -- counter of the eventfd
  race : Bool             -- a data race on an element
  acc : List Nat          -- elements in the order in which they got their places
  out : List Nat          -- elements dequeued
  deriving DecidableEq, Repr

/-- The queue, `k` threads besides the consumer. -/
def init (k : Nat) : St := ⟨[], List.replicate (k + 1) ⟨[], .idle⟩, 1, 0, false, [], []⟩

/-- After a `release_ref`. -/
def K.next : K → Pc
  | .retry e => .e0 e
  | .fin i => .x i
  | .rel e t => .f0 t (.retry e)
  | .pop e t => .p0 e t
  | .got e t n => .i1 e t n
  | .deq => .d0

/-- Thread `i` goes on at `pc`. -/
def St.go (s : St) (i : Nat) (v : View Loc) (pc : Pc) : St := { s with ths := s.ths.set i ⟨v, pc⟩ }

/-- A load, and what follows. -/
def ld (s : St) (i : Nat) (th : Thr) (o : Order) (l : Loc) (ts : Nat) (k : Nat → Pc) : Option St :=
  (load ini s.mem th.view o l ts).map fun r => s.go i r.2 (k r.1)

def st (s : St) (i : Nat) (th : Thr) (o : Order) (l : Loc) (ts x : Nat) (k : Pc) : Option St :=
  (store ini s.mem th.view o l ts x).map fun r => { s with mem := r.1 }.go i r.2 k

/-- A fetch_sub or exchange, and what follows. -/
def up (s : St) (i : Nat) (th : Thr) (o : Order) (l : Loc) (ts : Nat) (f : Nat → Nat) (k : Nat → Pc) : Option St :=
  (rmw ini s.mem th.view o l ts f).map fun r => { s with mem := r.2.1 }.go i r.2.2 (k r.1)

/-- A compare_exchange_weak: it fails if the value is not the expected one, and may fail in any case (`ch = false`).  `fo`: the order of the failing load. -/
def cas (s : St) (i : Nat) (th : Thr) (o fo : Order) (l : Loc) (ts x y : Nat) (ch : Bool) (yes no : Pc) : Option St :=
  match load ini s.mem th.view fo l ts with
  | some (z, v) =>
    if z = x ∧ ch = true then (rmw ini s.mem th.view o l ts (fun _ => y)).map fun r => { s with mem := r.2.1 }.go i r.2.2 yes
    else some (s.go i v no)
  | none => none

/-- The next access of thread `i`. -/
def exec (size : Nat) (s : St) (i : Nat) (th : Thr) (ts : Nat) (ch : Bool) : Option St :=
  match th.pc with
  | .idle => none
  | .e0 e => ld s i th .acq .tail ts fun t => .e1 e (t - 1)
  | .e1 e t => ld s i th .rlx (.refcnt t) ts fun c => if c = 0 then .e0 e else .e2 e t c
  | .e2 e t c => cas s i th .rlx .rlx (.refcnt t) ts c (c + 1) ch (.e3 e t) (.e0 e)
  | .e3 e t => ld s i th .rlx (.freed t) ts fun x => if x = 1 then .f0 t (.retry e) else .e4 e t
  | .e4 e t => ld s i th .rlx (.btail t) ts fun tt => if size ≤ tt then .e5 e t else .ec e t tt
  | .e5 e t => ld s i th .rlx (.bnext t) ts fun n => if n = 0 then .p0 e t else .f0 t (.retry e)
  | .p0 e t =>
    match load ini s.mem th.view .acq .top ts with
    | some (u, v) =>
      if u = 0 then some ({ s with nblk := s.nblk + 1 }.go i v (.i1 e t s.nblk))      -- line 131
      else some (s.go i v (.p1 e t (u - 1)))
    | none => none
  | .p1 e t u => ld s i th .rlx (.refcnt u) ts fun c => if c = 0 then .p0 e t else .p2 e t u c
  | .p2 e t u c => cas s i th .rlx .rlx (.refcnt u) ts c (c + 1) ch (.p3 e t u) (.p0 e t)
  | .p3 e t u => ld s i th .rlx (.fnext u) ts fun x => .p4 e t u x
  | .p4 e t u x => cas s i th .rlx .rlx .top ts (u + 1) x ch (.f0 u (.got e t u)) (.f0 u (.pop e t))
  | .i1 e t n => st s i th .rlx (.bhead n) ts 0 (.i2 e t n)
  | .i2 e t n => st s i th .rlx (.btail n) ts 0 (.i3 e t n)
  | .i3 e t n => st s i th .rlx (.bnext n) ts 0 (.e9 e t n)
  | .e9 e t n => cas s i th .acqRel .acq (.bnext t) ts 0 (n + 1) ch (.ea e t n) (.pu n (.rel e t))
  | .ea e t n => st s i th .rel .tail ts (n + 1) (.eb e t n)
  | .eb e t n => st s i th .rel (.freed n) ts 0 (.f0 t (.retry e))
  | .pu u k => st s i th .rlx (.freed u) ts 1 (.f0 u k)
  | .f0 u k => up s i th .rlx (.refcnt u) ts (· - 1) fun c => if c ≠ 1 then k.next else .f1 u k
  | .f1 u k => ld s i th .rlx .top ts fun x => .f2 u k x
  | .f2 u k x => st s i th .rlx (.fnext u) ts x (.f3 u k x)
  | .f3 u k x => cas s i th .rel .rlx .top ts x (u + 1) ch (.f4 u k) (.f1 u k)
  | .f4 u k => st s i th .rlx (.refcnt u) ts 1 k.next
  | .ec e t tt =>
    (cas s i th .rlx .rlx (.btail t) ts tt (tt + 1) ch (.ed e t tt) (.f0 t (.retry e))).map fun s' =>
      if (s'.ths[i]?.map (·.pc)) = some (.ed e t tt) then { s' with acc := s'.acc ++ [e] } else s'
  | .ed e t tt =>
    let r := plainStore s.mem th.view (.elem t tt) e
    some ({ s with mem := r.1, race := s.race || r.2.2 }.go i r.2.1 (.ee e t tt))
  | .ee _ t tt => st s i th .rel (.avail t tt) ts 1 (.f0 t (.fin tt))
  | .x _ => up s i th .acqRel .sig ts (fun _ => 0) fun b => if b = 1 then .nt else .idle
  | .nt => some ({ s with fd := s.fd + 1 }.go i th.view .idle)
  | .c0 => some ({ s with fd := 0 }.go i th.view .c1)
  | .c1 => up s i th .acqRel .sig ts (fun _ => 1) fun _ => .d0
  | .d0 => ld s i th .rlx .head ts fun h => .d1 (h - 1)
  | .d1 h => ld s i th .rlx (.bhead h) ts fun hh => .d2 h hh
  | .d2 h hh => ld s i th .rlx (.btail h) ts fun tt =>
      if tt ≤ hh then if tt < size then .idle else .d3 h else .d5 h hh
  | .d3 h => ld s i th .rlx (.bnext h) ts fun n => if n = 0 then .idle else .d4 h (n - 1)
  | .d4 h n => st s i th .rlx .head ts (n + 1) (.pu h .deq)
  | .d5 h hh => st s i th .rlx (.bhead h) ts (hh + 1) (.d6 h hh)
  | .d6 h hh => ld s i th .acq (.avail h hh) ts fun a => if a = 1 then .d7 h hh else .d6 h hh
  | .d7 h hh =>
    let r := plainLoad ini s.mem th.view (.elem h hh)
    some ({ s with race := s.race || r.2, out := s.out ++ [r.1] }.go i th.view (.d8 h hh))
  | .d8 h hh => st s i th .rlx (.avail h hh) ts 0 .d0
  | .cn => some ({ s with fd := s.fd + 1 }.go i th.view .idle)

inductive Act where
  | call (i e : Nat)                     -- thread i calls enqueue(e)
  | step (i ts : Nat) (ch : Bool)
  | fire                                 -- the event loop calls the handler
  | more                                 -- func stops although there may be more
  | sync (i j : Nat)                     -- something else makes what thread j has done so far happen before what thread i does from now on
  deriving DecidableEq, Repr

def step (size : Nat) (s : St) : Act → Option St
  | .call i e =>
    if i = 0 then none
    else match s.ths[i]? with
      | some th => if th.pc = .idle then some (s.go i th.view (.e0 e)) else none
      | none => none
  | .step i ts ch =>
    match s.ths[i]? with
    | some th => exec size s i th ts ch
    | none => none
  | .fire =>
    match s.ths[0]? with
    | some th => if th.pc = .idle ∧ 0 < s.fd then some (s.go 0 th.view .c0) else none
    | none => none
  | .more =>
    match s.ths[0]? with
    | some th => if th.pc = .d0 then some (s.go 0 th.view .cn) else none
    | none => none
  | .sync i j =>
    match s.ths[i]?, s.ths[j]? with
    | some a, some b => some (s.go i (a.view.join b.view) a.pc)
    | _, _ => none

def run (size : Nat) : St → List Act → Option St
  | s, [] => some s
  | s, a :: as => (step size s a).bind (run size · as)

end WQ
end Salticidae
