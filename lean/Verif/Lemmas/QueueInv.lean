import Verif.Lemmas.QueueBase
/-!
The invariant of the queues.
-/
namespace Salticidae
namespace Queue
open FreeList (upd upd_apply upd_self upd_other)

variable {α : Type}

def Pc.role (m : Mode) (i : Nat) : Pc α → Prop
  | .d1 | .d2 _ | .d3 _ _ | .d4 _ | .d5 _ _ | .d6 | .d7 _ _ | .d8 _ _ | .d9 _ _ | .d10 _ _ _ => m = .single i
  | .w1 _ | .w2 _ _ | .w3 _ _ | .w4 _ _ _ | .w5 _ _ _ | .w6 _ _ _ | .w7 _ _ | .w8 _ | .w9 _ _ | .w10 _ _ _ | .w11 _ _ _ | .w12 _ _ _ => m = .single i
  | .m1 | .m2 _ | .m3 _ _ | .m4 _ | .m5 _ _ | .m5p _ | .m6 _ _ | .m7 _ _ | .m8 _ _ | .m9 _ _ _ | .m10 _ _ | .mR | .mF | .mD _ => m = .multi
  | _ => True

/-- The block a thread is taking a reference to. -/
def Pc.wants : Pc α → Option Nat
  | .e2 _ _ t => some t
  | .m2 h => some h
  | _ => none

/-- The block a thread holds a reference to. -/
def Pc.refs : Pc α → Option Nat
  | .e5 _ _ t | .e6 _ _ t | .e7 _ _ t | .e8 _ _ t _ | .e9 _ _ t _ | .e10 _ _ t _ | .e11 _ _ t _ | .e12 _ _ t _ | .e13 _ _ t _ | .e14 _ _ t
  | .e15 _ _ t _ | .e16 _ _ t _ | .e17 _ _ t _ | .e18 t => some t
  | .m3 h _ | .m4 h | .m5 h _ | .m5p h | .m6 h _ | .m7 h _ | .m8 h _ | .m9 h _ _ | .m10 h _ => some h
  | _ => none

def heldOf (p : Pc α) (f : FreeList.Pc) : List Nat :=
  match p.wants with
  | some t => if f = .ret .ok then [t] else []
  | none => p.refs.toList

def Pc.reads : Pc α → Option (Nat × Nat)
  | .d8 h k | .d9 h k | .d10 h k _ | .w12 _ h k | .m7 h k | .m8 h k | .m9 h k _ => some (h, k)
  | _ => none

def Pc.writes : Pc α → Option (Nat × Nat)
  | .e16 _ _ t k | .e17 _ _ t k => some (t, k)
  | _ => none

def Pc.links : Pc α → Option (Nat × Nat)
  | .e12 _ _ t n => some (t, n)
  | _ => none

/-- What the operation of a thread is, and whether it has taken effect. -/
def Pc.doing (slot : Nat → Nat → Option α) : Pc α → Spec.Queue.Doing α
  | .idle _ => .nothing
  | .e1 e u | .e2 e u _ | .e5 e u _ | .e6 e u _ | .e7 e u _ | .e8 e u _ _ | .e9 e u _ _ | .e10 e u _ _ | .e11 e u _ _ | .e12 e u _ _ | .e13 e u _ _
  | .e14 e u _ | .eR e u | .e15 e u _ _ => .called (.enq e u)
  | .e16 _ _ _ _ | .e17 _ _ _ _ | .e18 _ | .eD => .done .yes
  | .eF => .done .no
  | .d1 | .d2 _ | .d3 _ _ | .d4 _ | .d5 _ _ | .d6 | .d7 _ _ => .called .deq
  | .d8 h k | .d9 h k => .done (.val (slot h k))
  | .d10 _ _ v => .done (.val v)
  | .w1 e | .w2 e _ | .w3 e _ | .w4 e _ _ | .w5 e _ _ | .w6 e _ _ | .w7 e _ | .w8 e | .w9 e _ | .w10 e _ _ | .w11 e _ _ | .w12 e _ _ => .called (.rewind e)
  | .m1 | .m2 _ | .m3 _ _ | .m4 _ | .m5 _ _ | .m5p _ | .m6 _ _ | .mR => .called .deqM
  | .m7 h k | .m8 h k => .done (.val (slot h k))
  | .m9 _ _ v | .m10 _ v | .mD v => .done (.val v)
  | .mF => .done .no
  | .a1 _ | .a2 => .called .add

/-- The block pop is going to return. -/
def gotK : FreeList.K → Option Nat
  | .got u => some u
  | _ => none

def gotF : FreeList.Pc → Option Nat
  | .rel _ _ k | .put1 _ k | .put2 _ _ k | .put3 _ _ k | .put4 _ k => gotK k
  | .ret (.popped u) => some u
  | _ => none

/-- A block that has been used up and left the queue, and whose references have not all gone. -/
def Spent (B : Nat) (s : St α) (u : Nat) : Prop :=
  s.stat u = .free ∧ (s.blk u).tail = B ∧ (s.blk u).head = B ∧ (s.blk u).next ≠ none ∧ ((∃ j, s.fl.phase u = .leaving j) ∨ s.fl.phase u = .pending)

/-- A block a producer may use, or will find to be used up. -/
def Good (B : Nat) (s : St α) (u : Nat) : Prop := (s.stat u = .chain ∧ s.hid u = none) ∨ Spent B s u
/-- The same for a consumer. -/
def MGood (B : Nat) (s : St α) (u : Nat) : Prop := s.qhead = u ∨ Spent B s u
/-- A block that has left the queue and is not marked yet. -/
def Unmarked (B : Nat) (s : St α) (u : Nat) : Prop := Spent B s u ∧ ∃ j, s.fl.pc j = .push u

def Live (s : St α) (b k : Nat) : Prop := (s.stat b = .chain ∧ (s.blk b).head ≤ k ∧ k < (s.blk b).tail) ∨ s.rd b k ≠ none

/-- What a thread knows. -/
def Loc (B : Nat) (s : St α) (i : Nat) : Pc α → Prop
  | .e2 _ _ t => s.seen t = true
  | .e5 _ _ t => Good B s t
  | .e6 _ _ t => Good B s t ∧ (s.blk t).tail = B
  | .e7 _ _ t => Good B s t ∧ (s.blk t).tail = B ∧ ∀ u, gotF (s.fl.pc i) = some u → s.stat u = .priv i ∧ (s.fl.node u).freed = true
  | .e8 _ unb t n => Good B s t ∧ (s.blk t).tail = B ∧ s.stat n = .priv i ∧ (unb = false → (s.fl.node n).freed = true)
  | .e9 _ unb t n => Good B s t ∧ (s.blk t).tail = B ∧ s.stat n = .priv i ∧ (unb = false → (s.fl.node n).freed = true) ∧ (s.blk n).head = 0
  | .e10 _ unb t n => Good B s t ∧ (s.blk t).tail = B ∧ s.stat n = .priv i ∧ (unb = false → (s.fl.node n).freed = true) ∧ (s.blk n).head = 0 ∧
      (s.blk n).tail = 0
  | .e11 _ unb t n => Good B s t ∧ (s.blk t).tail = B ∧ s.stat n = .priv i ∧ (unb = false → (s.fl.node n).freed = true) ∧ (s.blk n).head = 0 ∧
      (s.blk n).tail = 0 ∧ (s.blk n).next = none
  | .e12 _ unb _ n => s.hid n = some i ∧ (unb = false → (s.fl.node n).freed = true)
  | .e13 _ unb _ n => s.seen n = true ∧ ((s.hid n = some i ∧ (s.fl.node n).freed = true) ∨
      (unb = true ∧ (s.fl.node n).freed = false ∧ (s.stat n = .chain ∨ Unmarked B s n)))
  | .e15 _ _ t tt => Good B s t ∧ tt < B
  | .e16 e _ t tt => Good B s t ∧ s.slot t tt = some e
  | .e17 e _ t tt => Good B s t ∧ s.slot t tt = some e ∧ (s.blk t).elem tt = some e
  | .d2 h => h = s.qhead
  | .d3 h hh => h = s.qhead ∧ hh = (s.blk h).head
  | .d4 h => h = s.qhead ∧ (s.blk h).tail = B ∧ (s.blk h).head = B
  | .d5 h n => h = s.qhead ∧ (s.blk h).tail = B ∧ (s.blk h).head = B ∧ (s.blk h).next = some n
  | .d7 h hh => h = s.qhead ∧ hh = (s.blk h).head ∧ hh < (s.blk h).tail
  | .d8 h _ => h = s.qhead
  | .d9 h hh => h = s.qhead ∧ (s.blk h).avail hh = true
  | .d10 h hh _ => h = s.qhead ∧ (s.blk h).avail hh = true
  | .w2 _ h => h = s.qhead
  | .w3 _ h => h = s.qhead ∧ (s.blk h).head = 0 ∧ ∀ u, gotF (s.fl.pc i) = some u → s.stat u = .priv i
  | .w4 _ h n => h = s.qhead ∧ (s.blk h).head = 0 ∧ s.stat n = .priv i
  | .w5 _ h n => h = s.qhead ∧ (s.blk h).head = 0 ∧ s.stat n = .priv i ∧ (s.blk n).head = B
  | .w6 _ h n => h = s.qhead ∧ (s.blk h).head = 0 ∧ s.stat n = .priv i ∧ (s.blk n).head = B ∧ (s.blk n).tail = B
  | .w7 _ n => (s.blk s.qhead).head = 0 ∧ s.stat n = .priv i ∧ (s.blk n).head = B ∧ (s.blk n).tail = B ∧ (s.blk n).next = some s.qhead
  | .w8 _ => (s.blk s.qhead).head ≠ 0
  | .w9 _ h => h = s.qhead ∧ (s.blk h).head ≠ 0
  | .w10 _ h hh => h = s.qhead ∧ (s.blk h).head = hh + 1
  | .w11 e h hh => h = s.qhead ∧ (s.blk h).head = hh + 1 ∧ (s.blk h).elem hh = some e
  | .w12 e h hh => h = s.qhead ∧ (s.blk h).head = hh + 1 ∧ s.slot h hh = some e ∧ (s.blk h).avail hh = true
  | .m2 h => s.fl.pc i = .ret .ok → MGood B s h
  | .m3 h hh => MGood B s h ∧ hh ≤ (s.blk h).head
  | .m4 h => MGood B s h ∧ (s.blk h).tail = B ∧ (s.blk h).head = B
  | .m5 h n => MGood B s h ∧ (s.blk h).tail = B ∧ (s.blk h).head = B ∧ (s.blk h).next = some n
  | .m6 h hh => MGood B s h ∧ hh < (s.blk h).tail
  | .m7 h _ => MGood B s h
  | .m8 h hh => MGood B s h ∧ (s.blk h).avail hh = true
  | .m9 h hh _ => MGood B s h ∧ (s.blk h).avail hh = true
  | _ => True

/-- What holds of the shared state. -/
structure Glob (B : Nat) (s : St α) : Prop where
  fl : FreeList.Inv s.fl
  bad : s.fl.bad = false
  hd : s.chain.head? = some s.qhead
  link : Linked s.blk s.chain
  nd : s.chain.Nodup
  mem : ∀ u, u ∈ s.chain ↔ s.stat u = .chain
  full : ∀ u, s.stat u = .chain → (s.blk u).next ≠ none → (s.blk u).tail = B
  tl : ∀ u, s.stat u = .chain → (s.blk u).tail ≤ B
  zero : ∀ u, u ∈ s.chain.tail → (s.blk u).head = 0
  ht : ∀ u, s.stat u = .chain → (s.blk u).head ≤ (s.blk u).tail
  st : ∀ u, u < s.fl.alloc → (s.stat u = .free ↔ s.fl.phase u ≠ .used)
  un : ∀ u, s.fl.alloc ≤ u → s.stat u = .free ∧ s.seen u = false
  qt1 : s.lk = none → s.chain.getLast? = some s.qtail
  qs : s.seen s.qtail = true
  hid : ∀ n i, s.hid n = some i → s.stat n = .chain ∧ (s.blk n).tail = 0 ∧ ((s.fl.node n).freed = true ∨ s.seen n = false)
  fr : ∀ u, s.seen u = true → (s.fl.node u).freed = false → s.stat u = .chain ∨ Unmarked B s u
  fz : ∀ u, u < s.fl.alloc → s.stat u = .free → (s.fl.node u).freed = true ∨ ∃ j, s.fl.pc j = .push u
  sl : ∀ b k, Live s b k → (s.wr b k = none ∧ (s.blk b).avail k = true ∧ (s.blk b).elem k = s.slot b k) ∨
    (s.wr b k ≠ none ∧ (s.blk b).avail k = false)
  sd : ∀ b k, ¬ Live s b k → (s.blk b).avail k = false ∧ s.wr b k = none
  rdk : ∀ b k, s.rd b k ≠ none → k < (s.blk b).head ∧ (s.stat b = .chain ∨ Spent B s b)

/-- The invariant: the shared state, and what the threads are doing. -/
structure Inv [DecidableEq α] (B : Nat) (m : Mode) (s : St α) : Prop extends Glob B s where
  qt2 : ∀ i n, s.lk = some (i, n) → s.chain.getLast? = some n ∧ s.hid n = some i ∧ (s.pc i).links = some (s.qtail, n)
  lk : ∀ i t n, (s.pc i).links = some (t, n) → s.lk = some (i, n)
  rd : ∀ b k i, s.rd b k = some i ↔ (s.pc i).reads = some (b, k)
  wr : ∀ b k i, s.wr b k = some i ↔ (s.pc i).writes = some (b, k)
  role : ∀ i, (s.pc i).role m i
  flp : ∀ i u, (s.fl.pc i = .ref1 u ∨ ∃ n, s.fl.pc i = .ref2 u n) → (s.pc i).wants = some u
  held : ∀ i, s.fl.held i = heldOf (s.pc i) (s.fl.pc i)
  loc : ∀ i, Loc B s i (s.pc i)
  leg : ∃ q, Spec.Queue.replay Spec.Queue.empty s.log = some q ∧ q.q.map some = cont s.blk s.slot s.chain ∧ ∀ i, q.doing i = (s.pc i).doing s.slot

/-- What thread j can rely on when another thread moves. -/
structure Rely (B : Nat) (m : Mode) (s s' : St α) (j : Nat) : Prop where
  got : ∀ u, gotF (s'.fl.pc j) = some u → gotF (s.fl.pc j) = some u ∨ (s'.stat u = .priv j ∧ (s'.fl.node u).freed = true)
  ok : ∀ h, s.pc j = .m2 h → s'.fl.pc j = .ret .ok → s.fl.pc j = .ret .ok ∨ MGood B s' h
  priv : ∀ u, s.stat u = .priv j → s'.stat u = .priv j ∧ s'.blk u = s.blk u ∧ (s'.fl.node u).freed = (s.fl.node u).freed
  good : ∀ u, u ∈ s.fl.held j → Good B s u → Good B s' u
  mgood : m = .multi → ∀ u, u ∈ s.fl.held j → MGood B s u → MGood B s' u
  tail : ∀ u, s.stat u = .chain ∨ Spent B s u → (s.blk u).tail ≤ (s'.blk u).tail ∧ ((s.blk u).tail = B → (s'.blk u).tail = B)
  next : ∀ u x, s.stat u = .chain ∨ Spent B s u → (s.blk u).next = some x → (s'.blk u).next = some x
  head : m = .multi → ∀ u, s.stat u = .chain ∨ Spent B s u → (s.blk u).head ≤ (s'.blk u).head ∧ ((s.blk u).head = B → (s'.blk u).head = B)
  wr : ∀ b k, s.wr b k = some j → s'.slot b k = s.slot b k ∧ (s'.blk b).elem k = (s.blk b).elem k
  rd : ∀ b k, s.rd b k = some j → s'.slot b k = s.slot b k ∧ ((s.blk b).avail k = true → (s'.blk b).avail k = true)
  seen : ∀ u, s.seen u = true → s'.seen u = true
  hid : ∀ n, s.hid n = some j → s'.hid n = some j ∧ (s'.fl.node n).freed = (s.fl.node n).freed
  e13 : ∀ e t n, s.pc j = .e13 e true t n → (s.fl.node n).freed = false → (s.stat n = .chain ∨ Unmarked B s n) →
    (s'.fl.node n).freed = false ∧ (s'.stat n = .chain ∨ Unmarked B s' n)
  cq : m = .single j → s'.qhead = s.qhead
  ch : m = .single j → ∀ u, s.stat u = .chain → (s'.blk u).head = (s.blk u).head
  ce : m = .single j → ∀ b k, s.stat b = .chain → k < (s.blk b).head → s.rd b k = none → (s'.blk b).elem k = (s.blk b).elem k

theorem head_chain [DecidableEq α] {B : Nat} {m : Mode} {s : St α} (k : Inv B m s) : s.stat s.qhead = .chain :=
  (k.mem _).1 (List.mem_of_mem_head? k.hd)

theorem mgood_chain [DecidableEq α] {B : Nat} {m : Mode} {s : St α} (k : Inv B m s) {u : Nat} (h : MGood B s u) :
    s.stat u = .chain ∨ Spent B s u := by
  rcases h with h | h
  · exact .inl (h ▸ head_chain k)
  · exact .inr h

theorem good_chain {B : Nat} {s : St α} {u : Nat} (h : Good B s u) : s.stat u = .chain ∨ Spent B s u := by
  rcases h with h | h
  · exact .inl h.1
  · exact .inr h

/-- Only the consumer reads. -/
theorem rd_single [DecidableEq α] {B : Nat} {m : Mode} {s : St α} (k : Inv B m s) {c b j i : Nat} (hm : m = .single c) (h : s.rd b j = some i) :
    i = c := by
  have h1 := (k.rd b j i).1 h
  have h2 := k.role i
  generalize s.pc i = p at h1 h2
  cases p <;> simp only [Pc.reads, Pc.role] at h1 h2 <;> grind

theorem loc_stable [DecidableEq α] {B : Nat} {m : Mode} {s s' : St α} {j : Nat} (k : Inv B m s) (r : Rely B m s s' j) : Loc B s' j (s.pc j) := by
  have h := k.loc j
  have hr := k.role j
  have hh := k.held j
  have hrd := fun b k' => k.rd b k' j
  have hwr := fun b k' => k.wr b k' j
  have hc := head_chain k
  have r13 := r.e13
  have r17 := r.ok
  generalize hp : s.pc j = p at h hr hh hrd hwr r13 r17
  have r1 := r.got; have r2 := r.priv; have r3 := r.good; have r4 := r.mgood; have r5 := r.tail; have r6 := r.next; have r7 := r.head
  have r8 := r.wr; have r9 := r.rd; have r10 := r.seen; have r11 := r.hid; have r14 := r.cq; have r15 := r.ch; have r16 := r.ce
  have hm := fun u => mgood_chain k (u := u)
  have hg := fun u => good_chain (B := B) (s := s) (u := u)
  clear hp
  have hrk := k.rdk
  cases p <;> simp only [Loc, Pc.role, heldOf, Pc.wants, Pc.refs, Pc.reads, Pc.writes] at h hr hh hrd hwr ⊢
  case w11 e h' hh' =>
    have hn : s.rd h' hh' = none := by
      cases hx : s.rd h' hh' with
      | none => rfl
      | some i =>
        have := rd_single k hr hx
        subst this
        exact absurd ((hrd _ _).1 hx) (by simp)
    grind
  case e13 e unb t n =>
    have r13' : unb = true → _ := fun hu => r13 e t n (by rw [hu])
    clear r13
    grind
  all_goals grind

theorem doing_stable [DecidableEq α] {B : Nat} {m : Mode} {s s' : St α} {j : Nat} (k : Inv B m s) (r : Rely B m s s' j) :
    (s.pc j).doing s'.slot = (s.pc j).doing s.slot := by
  have h := fun b k' => (k.rd b k' j)
  have r9 := r.rd
  generalize s.pc j = p at h
  cases p <;> simp only [Pc.doing, Pc.reads] at h ⊢ <;> grind

/-- Thread i has moved. -/
theorem inv_mk [DecidableEq α] {B : Nat} {m : Mode} {s s' : St α} {i : Nat} (k : Inv B m s) (g : Glob B s') (hpc : ∀ j, j ≠ i → s'.pc j = s.pc j)
    (hheld : ∀ j, j ≠ i → s'.fl.held j = s.fl.held j) (hfpc : ∀ j, j ≠ i → s'.fl.pc j = s.fl.pc j) (rely : ∀ j, j ≠ i → Rely B m s s' j)
    (qt2 : ∀ j n, s'.lk = some (j, n) → s'.chain.getLast? = some n ∧ s'.hid n = some j ∧ (s'.pc j).links = some (s'.qtail, n))
    (lk : ∀ j t n, (s'.pc j).links = some (t, n) → s'.lk = some (j, n))
    (rd : ∀ b k j, s'.rd b k = some j ↔ (s'.pc j).reads = some (b, k))
    (wr : ∀ b k j, s'.wr b k = some j ↔ (s'.pc j).writes = some (b, k))
    (role : (s'.pc i).role m i)
    (flp : ∀ u, (s'.fl.pc i = .ref1 u ∨ ∃ n, s'.fl.pc i = .ref2 u n) → (s'.pc i).wants = some u)
    (held : s'.fl.held i = heldOf (s'.pc i) (s'.fl.pc i))
    (loc : Loc B s' i (s'.pc i))
    (leg : ∀ q, Spec.Queue.replay Spec.Queue.empty s.log = some q → q.q.map some = cont s.blk s.slot s.chain → q.doing i = (s.pc i).doing s.slot →
      ∃ q', Spec.Queue.replay Spec.Queue.empty s'.log = some q' ∧ q'.q.map some = cont s'.blk s'.slot s'.chain ∧
        q'.doing i = (s'.pc i).doing s'.slot ∧ ∀ j, j ≠ i → q'.doing j = q.doing j) : Inv B m s' := by
  refine { toGlob := g, qt2 := qt2, lk := lk, rd := rd, wr := wr, role := ?_, flp := ?_, held := ?_, loc := ?_, leg := ?_ }
  · intro j
    by_cases h : j = i
    · subst h; exact role
    · rw [hpc j h]; exact k.role j
  · intro j u
    by_cases h : j = i
    · subst h; exact flp u
    · rw [hpc j h, hfpc j h]; exact k.flp j u
  · intro j
    by_cases h : j = i
    · subst h; exact held
    · rw [hpc j h, hfpc j h, hheld j h]; exact k.held j
  · intro j
    by_cases h : j = i
    · subst h; exact loc
    · rw [hpc j h]; exact loc_stable k (rely j h)
  · obtain ⟨q, h1, h2, h3⟩ := k.leg
    obtain ⟨q', h4, h5, h6, h7⟩ := leg q h1 h2 (h3 i)
    refine ⟨q', h4, h5, fun j => ?_⟩
    by_cases h : j = i
    · subst h; exact h6
    · rw [h7 j h, h3 j, hpc j h]; exact (doing_stable k (rely j h)).symm

/-- Nothing happens to the history. -/
theorem leg_same [DecidableEq α] {s s' : St α} {i : Nat} (hl : s'.log = s.log) (hc : cont s'.blk s'.slot s'.chain = cont s.blk s.slot s.chain)
    (hd : (s'.pc i).doing s'.slot = (s.pc i).doing s.slot) :
    ∀ q, Spec.Queue.replay Spec.Queue.empty s.log = some q → q.q.map some = cont s.blk s.slot s.chain → q.doing i = (s.pc i).doing s.slot →
      ∃ q', Spec.Queue.replay Spec.Queue.empty s'.log = some q' ∧ q'.q.map some = cont s'.blk s'.slot s'.chain ∧
        q'.doing i = (s'.pc i).doing s'.slot ∧ ∀ j, j ≠ i → q'.doing j = q.doing j := by
  intro q h1 h2 h3
  exact ⟨q, hl ▸ h1, by rw [hc]; exact h2, by rw [hd]; exact h3, fun _ _ => rfl⟩

/-- An event happens. -/
theorem leg_event [DecidableEq α] {s s' : St α} {i : Nat} {ev : Ev α} (hl : s'.log = s.log ++ [ev])
    (h : ∀ q, q.q.map some = cont s.blk s.slot s.chain → q.doing i = (s.pc i).doing s.slot →
      ∃ q', Spec.Queue.after q ev = some q' ∧ q'.q.map some = cont s'.blk s'.slot s'.chain ∧ q'.doing i = (s'.pc i).doing s'.slot ∧
        ∀ j, j ≠ i → q'.doing j = q.doing j) :
    ∀ q, Spec.Queue.replay Spec.Queue.empty s.log = some q → q.q.map some = cont s.blk s.slot s.chain → q.doing i = (s.pc i).doing s.slot →
      ∃ q', Spec.Queue.replay Spec.Queue.empty s'.log = some q' ∧ q'.q.map some = cont s'.blk s'.slot s'.chain ∧
        q'.doing i = (s'.pc i).doing s'.slot ∧ ∀ j, j ≠ i → q'.doing j = q.doing j := by
  intro q h1 h2 h3
  obtain ⟨q', h4, h5⟩ := h q h2 h3
  refine ⟨q', ?_, h5⟩
  rw [hl, Spec.Queue.replay_append, h1]
  simp [Spec.Queue.replay, h4]

theorem rely_refl {B : Nat} {m : Mode} {s s' : St α} {j : Nat} (h1 : s'.fl = s.fl) (h2 : s'.blk = s.blk) (h3 : s'.qhead = s.qhead) (h4 : s'.stat = s.stat)
    (h5 : s'.seen = s.seen) (h6 : s'.slot = s.slot) (h7 : s'.hid = s.hid) : Rely B m s s' j := by
  constructor <;> simp only [Good, MGood, Spent, Unmarked, h1, h2, h3, h4, h5, h6, h7] <;> grind

/-- Only the place of thread i changes. -/
theorem inv_pc [DecidableEq α] {B : Nat} {m : Mode} {s : St α} {i : Nat} {p : Pc α} (k : Inv B m s) {r : FreeList.Res} (hf : s.fl.pc i = .ret r)
    (h1 : p.links = none ∧ (s.pc i).links = none) (h2 : p.reads = (s.pc i).reads) (h3 : p.writes = (s.pc i).writes) (h4 : p.role m i)
    (h5 : heldOf p (.ret r) = heldOf (s.pc i) (.ret r)) (h6 : Loc B s i p) (h7 : p.doing s.slot = (s.pc i).doing s.slot) :
    Inv B m (s.setPc i p) := by
  have e1 : (s.setPc i p).pc i = p := upd_self _ _ _
  refine inv_mk (s := s) (i := i) k ⟨k.fl, k.bad, k.hd, k.link, k.nd, k.mem, k.full, k.tl, k.zero, k.ht, k.st, k.un, k.qt1, k.qs, k.hid, k.fr, k.fz, k.sl, k.sd, k.rdk⟩
    (fun j hj => upd_other _ _ hj) (fun _ _ => rfl) (fun _ _ => rfl) (fun j _ => rely_refl rfl rfl rfl rfl rfl rfl rfl) ?_ ?_ ?_ ?_ ?_ ?_ ?_ ?_ (leg_same rfl rfl ?_)
  · have := k.qt2; simp only [St.setPc, upd_apply]; grind
  · have := k.lk; simp only [St.setPc, upd_apply]; grind
  · have := k.rd; simp only [St.setPc, upd_apply]; grind
  · have := k.wr; simp only [St.setPc, upd_apply]; grind
  · rw [e1]; exact h4
  · intro u hu
    simp only [St.setPc, hf] at hu
    grind
  · rw [e1]
    show s.fl.held i = heldOf p (s.fl.pc i)
    rw [hf, h5, ← hf]; exact k.held i
  · rw [e1]
    have : Loc B (s.setPc i p) i p = Loc B s i p := by cases p <;> rfl
    rw [this]; exact h6
  · rw [e1]; exact h7

end Queue
end Salticidae
