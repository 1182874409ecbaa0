import Verif.Lemmas.QueueAlone
import Verif.Props.QueueCap
/-!
Property C105: operations of the queues return.
-/
namespace Salticidae
open Queue Spec.Queue

namespace Queue
open FreeList (upd upd_apply upd_self upd_other)

variable {α : Type} [DecidableEq α]

/-- The thread that acts. -/
def Act.who : Act α → Nat
  | .start i _ => i
  | .go i _ => i

theorem untouched {B j : Nat} : ∀ {acts : List (Act α)} {s s' : St α}, run B s acts = some s' → (∀ a ∈ acts, a.who ≠ j) → s'.pc j = s.pc j
  | [], s, s', h, _ => by cases h; rfl
  | a :: as, s, s', h, hn => by
    simp only [run, Option.bind_eq_some_iff] at h
    obtain ⟨s1, h1, h2⟩ := h
    rw [untouched h2 fun x hx => hn x (by simp [hx])]
    have hj : j ≠ a.who := (hn a (by simp)).symm
    cases a with
    | start i c =>
      simp only [step] at h1
      split at h1
      · cases h1; exact upd_other _ _ hj
      · cases h1
    | go i ch =>
      simp only [step] at h1
      split at h1
      · exact (local_pc h1 j hj).1
      · simp only [Option.map_eq_some_iff] at h1
        obtain ⟨fl, h3, h4⟩ := h1
        subst h4; rfl

/-- A thread that a history does not mention is in no operation. -/
theorem idle_of_small {B n j : Nat} {acts : List (Act α)} {s : St α} (h : run B (init α) acts = some s) (ha : ∀ a ∈ acts, a.who < n) (hj : n ≤ j) : Idle s j :=
  ⟨.none, by rw [untouched h fun a hx => by have := ha a hx; omega]; rfl⟩

/-! # Operations that never return -/

/-- A consumer that has taken a slot nobody is going to write. -/
def Waits (s : St α) (i h hh : Nat) : Prop := s.pc i = .m7 h hh ∧ (∃ r, s.fl.pc i = .ret r) ∧ (s.blk h).avail hh = false

theorem waits_step {B i h hh : Nat} {s s' : St α} (k : Waits s i h hh) (hs : step B s (.go i true) = some s') : Waits s' i h hh := by
  obtain ⟨h1, ⟨r, h2⟩, h3⟩ := k
  simp [step, h2, localStep, h1, enqStep, deqStep, rewStep, mpmcStep, h3, St.setPc] at hs
  subst hs
  exact ⟨upd_self .., ⟨r, h2⟩, h3⟩

/-- A producer that finds the tail full and another block behind it, again and again. -/
def Spins (B : Nat) (s : St α) (i : Nat) : Prop :=
  B ≤ (s.blk s.qtail).tail ∧ (s.blk s.qtail).next ≠ none ∧ (s.fl.node s.qtail).freed = false ∧ ∃ e u,
    (s.pc i = .e1 e u ∧ (∃ r, s.fl.pc i = .ret r) ∧ 1 ≤ (s.fl.node s.qtail).refcnt) ∨
    (s.pc i = .e2 e u s.qtail ∧ s.fl.pc i = .ref1 s.qtail ∧ 1 ≤ (s.fl.node s.qtail).refcnt) ∨
    (s.pc i = .e2 e u s.qtail ∧ s.fl.pc i = .ref2 s.qtail (s.fl.node s.qtail).refcnt ∧ 1 ≤ (s.fl.node s.qtail).refcnt) ∨
    (s.pc i = .e2 e u s.qtail ∧ s.fl.pc i = .ret .ok ∧ 2 ≤ (s.fl.node s.qtail).refcnt) ∨
    (s.pc i = .e5 e u s.qtail ∧ (∃ r, s.fl.pc i = .ret r) ∧ 2 ≤ (s.fl.node s.qtail).refcnt) ∨
    (s.pc i = .e6 e u s.qtail ∧ (∃ r, s.fl.pc i = .ret r) ∧ 2 ≤ (s.fl.node s.qtail).refcnt) ∨
    (s.pc i = .eR e u ∧ s.fl.pc i = .rel s.qtail false .ret ∧ 2 ≤ (s.fl.node s.qtail).refcnt) ∨
    (s.pc i = .eR e u ∧ (∃ r, s.fl.pc i = .ret r) ∧ 1 ≤ (s.fl.node s.qtail).refcnt)

theorem spins_step {B i : Nat} {s s' : St α} (k : Spins B s i) (hs : step B s (.go i true) = some s') : Spins B s' i := by
  obtain ⟨h1, h2, h3, e, u, h⟩ := k
  rcases h with ⟨p, ⟨r, f⟩, c⟩ | ⟨p, f, c⟩ | ⟨p, f, c⟩ | ⟨p, f, c⟩ | ⟨p, ⟨r, f⟩, c⟩ | ⟨p, ⟨r, f⟩, c⟩ | ⟨p, f, c⟩ | ⟨p, ⟨r, f⟩, c⟩
  · simp [step, f, localStep, p, enqStep, St.setPc, St.call] at hs
    subst hs
    refine ⟨h1, h2, by simpa using h3, e, u, .inr (.inl ⟨upd_self .., by simp [opPc], by simpa using c⟩)⟩
  · have c0 : (s.fl.node s.qtail).refcnt ≠ 0 := by omega
    simp [step, f, FreeList.micro, afterMicro, FreeList.St.setPc, c0] at hs
    subst hs
    exact ⟨h1, h2, h3, e, u, .inr (.inr (.inl ⟨p, by simp, c⟩))⟩
  · simp [step, f, FreeList.micro, afterMicro, FreeList.St.setPc, FreeList.St.setCnt, FreeList.St.addHolder] at hs
    subst hs
    exact ⟨h1, h2, by simpa using h3, e, u, .inr (.inr (.inr (.inl ⟨p, by simp, by simp; omega⟩)))⟩
  · simp [step, f, localStep, p, enqStep, St.setPc, h3] at hs
    subst hs
    exact ⟨h1, h2, h3, e, u, .inr (.inr (.inr (.inr (.inl ⟨upd_self .., ⟨_, f⟩, c⟩))))⟩
  · simp [step, f, localStep, p, enqStep, St.setPc, h1] at hs
    subst hs
    exact ⟨h1, h2, h3, e, u, .inr (.inr (.inr (.inr (.inr (.inl ⟨upd_self .., ⟨_, f⟩, c⟩)))))⟩
  · simp [step, f, localStep, p, enqStep, St.setPc, St.call, h2] at hs
    subst hs
    exact ⟨h1, h2, by simpa using h3, e, u, .inr (.inr (.inr (.inr (.inr (.inr (.inl ⟨upd_self .., by simp [opPc], by simpa using c⟩))))))⟩
  · have c0 : (s.fl.node s.qtail).refcnt ≠ 1 := by omega
    simp [step, f, FreeList.micro, FreeList.release, afterMicro, FreeList.St.setPc, FreeList.St.setCnt, FreeList.St.delHolder, c0] at hs
    subst hs
    exact ⟨h1, h2, by simpa using h3, e, u, .inr (.inr (.inr (.inr (.inr (.inr (.inr ⟨p, ⟨.none, by simp [FreeList.K.pc]⟩, by simp; omega⟩))))))⟩
  · simp [step, f, localStep, p, enqStep, St.setPc] at hs
    subst hs
    exact ⟨h1, h2, h3, e, u, .inl ⟨upd_self .., ⟨_, f⟩, c⟩⟩

theorem run_goN {B i : Nat} {P : St α → Prop} (hP : ∀ s s', P s → step B s (.go i true) = some s' → P s') : ∀ (n : Nat) {s s' : St α}, P s → run B s (goN i n) = some s' → P s'
  | 0, s, s', h, hr => by cases hr; exact h
  | n + 1, s, s', h, hr => by
    simp only [goN, List.replicate_succ, run, Option.bind_eq_some_iff] at hr
    obtain ⟨s1, h1, h2⟩ := hr
    exact run_goN hP n (hP _ _ h h1) h2

theorem run_app {B : Nat} : ∀ {as bs : List (Act α)} {s s' : St α}, run B s as = some s' → run B s (as ++ bs) = run B s' bs
  | [], bs, s, s', h => by cases h; rfl
  | a :: as, bs, s, s', h => by
    simp only [run, Option.bind_eq_some_iff] at h
    obtain ⟨s1, h1, h2⟩ := h
    simp only [List.cons_append, run, h1, Option.bind_some]
    exact run_app h2

theorem trace_app {B : Nat} : ∀ {as bs : List (Act α)} {s s' : St α}, run B s as = some s' → trace B s (as ++ bs) = trace B s as ++ trace B s' bs
  | [], bs, s, s', h => by cases h; rfl
  | a :: as, bs, s, s', h => by
    simp only [run, Option.bind_eq_some_iff] at h
    obtain ⟨s1, h1, h2⟩ := h
    simp only [List.cons_append, trace, h1, trace_app h2]

/-- While a thread has linked a block and not made it the tail, no enqueue takes effect. -/
theorem no_enq {B : Nat} {m : Mode} {s s' : St α} {j : Nat} {e : α} {u : Bool} {t n : Nat} {a : Act α} (k : Inv B m s) (hj : s.pc j = .e12 e u t n) (h : step B s a = some s') :
    enqueued s'.log = enqueued s.log := by
  cases a with
  | start i c =>
    simp only [step] at h
    split at h
    · cases h; simp [St.setPc, St.rcd, enqueued]
    · cases h
  | go i ch =>
    simp only [step] at h
    split at h
    · rename_i r hr
      simp only [localStep] at h
      cases hp : s.pc i <;>
        simp only [hp, enqStep, deqStep, rewStep, mpmcStep, addStep, Option.none_or, Option.or_none, Option.some_or, gotBlk] at h
      case e15 e' u' t' tt =>
        split at h
        · rename_i hx
          simp only [Bool.and_eq_true, beq_iff_eq] at hx
          have hl := k.loc i
          rw [hp] at hl
          obtain ⟨hg, htt⟩ := hl
          have hlk := k.lk j t n (by rw [hj]; rfl)
          obtain ⟨q1, q2, _⟩ := k.qt2 j n hlk
          rcases hg with ⟨g1, g2⟩ | g
          · have hnx : (s.blk t').next = none := by
              rcases Decidable.em ((s.blk t').next = none) with hy | hy
              · exact hy
              · have := k.full t' g1 hy; omega
            have := (linked_last k.nd k.link ((k.mem _).2 g1)).1 hnx
            rw [q1] at this
            cases this
            rw [q2] at g2; cases g2
          · have := g.2.1; omega
        · cases h; rfl
      all_goals (repeat' split at h)
      all_goals first
        | (cases h; done)
        | (cases h; simp [St.setPc, St.rcd, St.ret, St.setBlk, St.setStat, St.call, enqueued]; done)
    · simp only [Option.map_eq_some_iff] at h
      obtain ⟨fl, h1, h2⟩ := h
      subst h2; rfl

theorem no_enq_run {B : Nat} {m : Mode} (hB : 0 < B) {j : Nat} {e : α} {u : Bool} {t n : Nat} : ∀ {acts : List (Act α)} {s s' : St α}, Inv B m s → IdleFl s → s.pc j = .e12 e u t n →
    run B s acts = some s' → (∀ a ∈ acts, a.who ≠ j) → (∀ a ∈ acts, a.allowed m) → (∀ p ∈ trace B s acts, timelyAt p.1 p.2) → (m = .multi → ∀ p ∈ trace B s acts, freshAt p.1 p.2) →
    enqueued s'.log = enqueued s.log
  | [], s, s', _, _, _, h, _, _, _, _ => by cases h; rfl
  | a :: as, s, s', k, ki, hj, h, hw, ha, hT, hF => by
    have h0 := h
    simp only [run, Option.bind_eq_some_iff] at h
    obtain ⟨s1, h1, h2⟩ := h
    simp only [trace, h1, List.mem_cons] at hT hF
    rw [no_enq_run hB (inv_step hB k ki h1 (ha a (by simp)) (hT _ (.inl rfl)) (fun hm => hF hm _ (.inl rfl))) (idle_step ki h1)
      (by rw [untouched (B := B) (acts := [a]) (s := s) (by simp [run, h1]) (by simpa using hw a (by simp))]; exact hj) h2 (fun x hx => hw x (by simp [hx])) (fun x hx => ha x (by simp [hx]))
      (fun p hp => hT p (.inr hp)) (fun hm p hp => hF hm p (.inr hp)), no_enq k hj h1]

end Queue

/-! # C105 -/

/-- C105: an operation returns, if from some moment on no other operation is in progress.  False of the code (`C105_violated`, `C105_violated_single`). -/
def C105_statement : Prop :=
  ∀ (α : Type) [DecidableEq α] (B : Nat) (m : Mode) (acts : List (Act α)) (s : Queue.St α) (i : Nat), 0 < B → (∀ a ∈ acts, a.allowed m) → run B (init α) acts = some s →
    (∀ j, j ≠ i → Idle s j) → ∃ n s', run B s (goN i n) = some s' ∧ Idle s' i

/-- Consumer 1 of an MPMCQueue has read which block is the head, and is then late: it gets its reference when producer 3 has that block for its own, and the tail index of its first use is still
there; it takes a slot.  Producer 4 is quicker than 3 to link a block, and 3 gives its block back. -/
def deadSlot : List (Act Nat) :=
  [.start 3 (.enq 1 true)] ++ goN 3 11 ++ [.start 3 (.enq 2 true)] ++ goN 3 28 ++ [.start 1 .deqM] ++ goN 1 1 ++ [.start 2 .deqM] ++ goN 2 12 ++ [.start 2 .deqM] ++ goN 2 28 ++ goN 1 2 ++
  [.start 3 (.enq 3 true)] ++ goN 3 14 ++ [.start 4 (.enq 4 true)] ++ goN 4 28 ++ goN 1 3 ++ goN 3 36

theorem deadSlot_end : (run 1 (init Nat) deadSlot).map (fun s => (s.pc 1, s.fl.pc 1, (s.blk 0).avail 0, (List.range 5).map s.pc)) =
    some (.m7 0 0, .ret .ok, false, [.idle .none, .m7 0 0, .idle (.val (some 2)), .idle .yes, .idle .yes]) := by decide +kernel

/-- With several consumers: consumer 1 waits for ever for an element in a slot that no producer will fill, though nobody else is active. -/
theorem C105_violated : ¬ C105_statement := by
  intro h
  obtain ⟨s, hs, hx⟩ := Option.map_eq_some_iff.mp deadSlot_end
  simp only [Prod.mk.injEq, show List.range 5 = [0, 1, 2, 3, 4] from rfl, List.map_cons, List.map_nil, List.cons.injEq] at hx
  obtain ⟨n, s', h1, x, h2⟩ := h Nat 1 .multi deadSlot s 1 (by omega) (by decide +kernel) hs (fun j hj => by
    by_cases h5 : 5 ≤ j
    · exact idle_of_small hs (n := 5) (by decide +kernel) h5
    · match j, h5, hj with
      | 0, _, _ => exact ⟨_, hx.2.2.2.1⟩
      | 2, _, _ => exact ⟨_, hx.2.2.2.2.2.1⟩
      | 3, _, _ => exact ⟨_, hx.2.2.2.2.2.2.1⟩
      | 4, _, _ => exact ⟨_, hx.2.2.2.2.2.2.2.1⟩
      | n + 5, h5, _ => omega)
  have := run_goN (P := fun s => Waits s 1 0 0) (fun _ _ => waits_step) n ⟨hx.1, ⟨_, hx.2.1⟩, hx.2.2.1⟩ h1
  rw [this.1] at h2; cases h2

/-- Producers of an MPSCQueue: 2 clears the mark of a block late (as in C34), so that 3 takes a block of the free list for the queue's tail, and links a block behind it; then producer 4, which has got
the first of these blocks from the free list, links it in the queue.  The tail is a full block with a block behind it that nobody is going to make the tail. -/
def deadTail : List (Act Nat) :=
  [.start 1 (.enq 1 true)] ++ goN 1 11 ++ [.start 2 (.enq 2 true)] ++ goN 2 13 ++ [.start 3 (.enq 9 true)] ++ goN 3 1 ++ [.start 1 (.enq 3 true)] ++ goN 1 11 ++ [.start 0 .deq] ++ goN 0 7 ++
  [.start 0 .deq] ++ goN 0 15 ++ [.start 1 (.enq 4 true)] ++ goN 1 28 ++ [.start 0 .deq] ++ goN 0 19 ++ goN 2 41 ++ [.start 4 (.enq 5 true)] ++ goN 4 14 ++ goN 3 4 ++ goN 4 2 ++ goN 3 8 ++ goN 4 17 ++ goN 3 4

theorem deadTail_end : (run 1 (init Nat) deadTail).map (fun s => (s.pc 3, s.fl.pc 3, [(s.blk s.qtail).tail, (s.fl.node s.qtail).refcnt], (s.blk s.qtail).next == some 3 && !(s.fl.node s.qtail).freed, (List.range 5).map s.pc)) =
    some (.e1 9 true, .ret .none, [1, 1], true, [.idle (.val (some 4)), .idle .yes, .idle .yes, .e1 9 true, .idle .yes]) := by decide +kernel

/-- With one consumer: producer 3 goes round for ever, though nobody else is active. -/
theorem C105_violated_single : ¬ ∀ (α : Type) [DecidableEq α] (B c : Nat) (acts : List (Act α)) (s : Queue.St α) (i : Nat), 0 < B → (∀ a ∈ acts, a.allowed (.single c)) →
    run B (init α) acts = some s → (∀ j, j ≠ i → Idle s j) → ∃ n s', run B s (goN i n) = some s' ∧ Idle s' i := by
  intro h
  obtain ⟨s, hs, hx⟩ := Option.map_eq_some_iff.mp deadTail_end
  simp only [Prod.mk.injEq, show List.range 5 = [0, 1, 2, 3, 4] from rfl, List.map_cons, List.map_nil, List.cons.injEq] at hx
  obtain ⟨x1, x2, ⟨x3, x5, _⟩, x4, x6⟩ := hx
  simp only [Bool.and_eq_true, beq_iff_eq, Bool.not_eq_true'] at x4
  obtain ⟨n, s', h1, x, h2⟩ := h Nat 1 0 deadTail s 3 (by omega) (by decide +kernel) hs (fun j hj => by
    by_cases h5 : 5 ≤ j
    · exact idle_of_small hs (n := 5) (by decide +kernel) h5
    · match j, h5, hj with
      | 0, _, _ => exact ⟨_, x6.1⟩
      | 1, _, _ => exact ⟨_, x6.2.1⟩
      | 2, _, _ => exact ⟨_, x6.2.2.1⟩
      | 4, _, _ => exact ⟨_, x6.2.2.2.2.1⟩
      | n + 5, h5, _ => omega)
  have := run_goN (P := fun s => Spins 1 s 3) (fun _ _ => spins_step) n ⟨by omega, by simp [x4.1], x4.2, 9, true, .inl ⟨x1, ⟨_, x2⟩, by omega⟩⟩ h1
  obtain ⟨_, _, _, e, u, h3⟩ := this
  simp [h2] at h3

/-- It does, if no block is given back while the producer that linked it in an unbounded enqueue is still about to clear its mark, and (with many consumers) no consumer gets its reference to the block it
read as the queue's head when the head has moved on. -/
theorem C105_returns_partial {α : Type} [DecidableEq α] {B : Nat} {m : Mode} {acts : List (Act α)} {s : Queue.St α} {i : Nat} (hB : 0 < B) (ha : ∀ a ∈ acts, a.allowed m) (ht : Timely B acts)
    (hf : m = .multi → Fresh B acts) (h : run B (init α) acts = some s) (hi : ∀ j, j ≠ i → Idle s j)
    (hs : m = .multi → ∀ u, s.pc i = .m2 u → s.fl.pc i = .ref1 u ∨ (∃ n, s.fl.pc i = .ref2 u n) → s.qhead = u) :
    ∃ n s', run B s (goN i n) = some s' ∧ Idle s' i := by
  obtain ⟨k, ki⟩ := inv_run hB (inv_init B m) idle_init h ha ht hf
  have kp := prog_run hB (inv_init B m) idle_init prog_init h ha ht hf
  refine alone_done hB ⟨k, ki, kp, hi, fun hm u hu hr => hs hm u hu ?_⟩
  have := kp.fit i
  rw [hu] at this
  cases hx : s.fl.pc i <;> rw [hx] at this hr <;> first | (cases this; done) | (cases hr; done) | skip
  · simp [Fit, refF] at this; simp [this]
  · simp [Fit, refF] at this; simp [this]

/-- So does one that is called when no operation is in progress, … -/
theorem C105_called_partial {α : Type} [DecidableEq α] {B : Nat} {m : Mode} {acts : List (Act α)} {s : Queue.St α} {i : Nat} {c : Call α} (hB : 0 < B) (ha : ∀ a ∈ acts, a.allowed m)
    (hc : (Act.start i c).allowed m) (ht : Timely B acts) (hf : m = .multi → Fresh B acts) (h : run B (init α) acts = some s) (hi : ∀ j, Idle s j) :
    ∃ n s', run B s (.start i c :: goN i n) = some s' ∧ Idle s' i := by
  obtain ⟨x, hx⟩ := hi i
  obtain ⟨k, ki⟩ := inv_run hB (inv_init B m) idle_init h ha ht hf
  have kp := prog_run hB (inv_init B m) idle_init prog_init h ha ht hf
  have h1 : step B s (.start i c) = some ((s.rcd (.call i c)).setPc i (start c)) := by simp [step, hx]
  obtain ⟨n, s', h2, h3⟩ := alone_done (i := i) hB ⟨inv_step hB k ki h1 hc trivial (fun _ => trivial), idle_step ki h1, prog_step k kp h1,
    fun j hj => by obtain ⟨y, hy⟩ := hi j; exact ⟨y, by simp only [St.setPc, St.rcd, FreeList.upd_other _ _ hj]; exact hy⟩,
    fun _ u hu _ => by simp only [St.setPc, FreeList.upd_self] at hu; cases c <;> cases hu⟩
  exact ⟨n, s', by simp only [run, h1, Option.bind_some]; exact h2, h3⟩

/-- … and one of a queue with one consumer all of whose enqueues are bounded, or all by one producer. -/
theorem C105_bounded_partial {α : Type} [DecidableEq α] {B c : Nat} {acts : List (Act α)} {s : Queue.St α} {i : Nat} (hB : 0 < B) (ha : ∀ a ∈ acts, a.allowed (.single c))
    (hb : (∀ a ∈ acts, ∀ i e, a ≠ .start i (.enq e true)) ∨ ∃ p, ∀ a ∈ acts, ∀ i e u, a = .start i (.enq e u) → i = p) (h : run B (init α) acts = some s) (hi : ∀ j, j ≠ i → Idle s j) :
    ∃ n s', run B s (goN i n) = some s' ∧ Idle s' i := by
  refine C105_returns_partial (m := .single c) hB ha ?_ (fun e => by cases e) h hi (fun e => by cases e)
  rcases hb with hb | ⟨p, hb⟩
  · exact timely_bounded (fun _ => rfl) hb
  · exact timely_sole hB (inv_init B (.single c)) idle_init (sole_init p) ha (fun e => by cases e) hb

/-- The queues are not lock-free: when a producer is stopped after it has linked a block and before it has made it the queue's tail (lines 143-147), no enqueue of any thread takes effect, whatever the
others do. -/
theorem C105_waits {α : Type} [DecidableEq α] {B : Nat} {m : Mode} {acts acts' : List (Act α)} {s s' : Queue.St α} {j t n : Nat} {e : α} {u : Bool} (hB : 0 < B)
    (ha : ∀ a ∈ acts ++ acts', a.allowed m) (ht : Timely B (acts ++ acts')) (hf : m = .multi → Fresh B (acts ++ acts')) (h : run B (init α) acts = some s) (hj : s.pc j = .e12 e u t n)
    (h' : run B s acts' = some s') (hw : ∀ a ∈ acts', a.who ≠ j) : enqueued s'.log = enqueued s.log := by
  simp only [Timely, Fresh, trace_app h, List.mem_append] at ht hf
  obtain ⟨k, ki⟩ := inv_run hB (inv_init B m) idle_init h (fun a hx => ha a (by simp [hx])) (fun p hp => ht p (.inl hp)) (fun hm p hp => hf hm p (.inl hp))
  exact no_enq_run hB k ki hj h' hw (fun a hx => ha a (by simp [hx])) (fun p hp => ht p (.inr hp)) (fun hm p hp => hf hm p (.inr hp))

/-- Producers 1 and 2 find the same block full, and both take a new one; 1 links its, and returns; 2 is left, and has to give its block back and begin again. -/
def overtaken : List (Act Nat) :=
  [.start 1 (.enq 1 true)] ++ goN 1 11 ++ [.start 1 (.enq 2 true), .start 2 (.enq 3 true)] ++ goN 1 9 ++ goN 2 9 ++ goN 1 19

example : ∃ s, run 1 (init Nat) overtaken = some s ∧ s.pc 2 = .e9 3 true 0 2 ∧ (s.blk 0).next = some 1 ∧ ∃ n s', run 1 s (goN 2 n) = some s' ∧ Idle s' 2 := by
  have e : (run 1 (init Nat) overtaken).map (fun s => ((s.blk 0).next, (List.range 3).map s.pc)) = some (some 1, [.idle .none, .idle .yes, .e9 3 true 0 2]) := by decide +kernel
  obtain ⟨s, h, hx⟩ := Option.map_eq_some_iff.mp e
  simp only [Prod.mk.injEq, show List.range 3 = [0, 1, 2] from rfl, List.map_cons, List.map_nil, List.cons.injEq] at hx
  obtain ⟨x1, x2, x3, x4, _⟩ := hx
  refine ⟨s, h, x4, x1, C105_returns_partial (m := .multi) (by omega) (by decide +kernel) (timely_of_check 3 (by decide +kernel) (by decide +kernel)) (fun _ => fresh_of_check (by decide +kernel)) h ?_
    (fun _ u hu => by rw [x4] at hu; cases hu)⟩
  intro j hj
  by_cases h3 : 3 ≤ j
  · exact idle_of_small h (n := 3) (by decide +kernel) h3
  · match j, h3, hj with
    | 0, _, _ => exact ⟨_, x2⟩
    | 1, _, _ => exact ⟨_, x3⟩
    | n + 3, h3, _ => omega

/-- Producer 1 has linked a block; producer 2 goes round and round. -/
def stopped : List (Act Nat) := [.start 1 (.enq 1 true)] ++ goN 1 11 ++ [.start 1 (.enq 2 true)] ++ goN 1 12
def spinning : List (Act Nat) := [.start 2 (.enq 3 true)] ++ goN 2 100

example : ∃ s s', run 1 (init Nat) stopped = some s ∧ run 1 s spinning = some s' ∧ enqueued s'.log = [1] ∧ ¬ Idle s' 2 := by
  have e : (run 1 (init Nat) stopped).map (fun s => (s.pc 1, enqueued s.log)) = some (.e12 2 true 0 1, [1]) := by decide +kernel
  obtain ⟨s, h, hx⟩ := Option.map_eq_some_iff.mp e
  simp only [Prod.mk.injEq] at hx
  have e' : (run 1 (init Nat) (stopped ++ spinning)).map (fun s => s.pc 2) = some (.e5 3 true 0) := by decide +kernel
  obtain ⟨s', h', hx'⟩ := Option.map_eq_some_iff.mp e'
  rw [run_app h] at h'
  refine ⟨s, s', h, h', ?_, fun ⟨x, hy⟩ => by rw [hx'] at hy; cases hy⟩
  rw [C105_waits (m := .multi) (by omega) (by decide +kernel) (timely_of_check 3 (by decide +kernel) (by decide +kernel)) (fun _ => fresh_of_check (by decide +kernel)) h hx.1 h' (by decide +kernel), hx.2]

/-- After `mpmcRun` (C37) nothing is in progress: the next dequeue returns. -/
example : ∃ s n s', run 1 (init Nat) mpmcRun = some s ∧ run 1 s (.start 0 .deqM :: goN 0 n) = some s' ∧ Idle s' 0 := by
  have e : (run 1 (init Nat) mpmcRun).map (fun s => (List.range 4).map (fun j => idlePc (s.pc j))) = some [true, true, true, true] := by decide +kernel
  obtain ⟨s, h, hx⟩ := Option.map_eq_some_iff.mp e
  simp only [show List.range 4 = [0, 1, 2, 3] from rfl, List.map_cons, List.map_nil, List.cons.injEq] at hx
  have hi : ∀ j, idlePc (s.pc j) = true → Idle s j := by
    intro j hj
    cases hp : s.pc j <;> rw [hp] at hj <;> first | exact ⟨_, hp⟩ | cases hj
  obtain ⟨n, s', h1, h2⟩ := C105_called_partial (m := .multi) (i := 0) (c := .deqM) (by omega) mpmcRun_allowed rfl mpmcRun_timely (fun _ => mpmcRun_fresh) h (fun j => by
    by_cases h4 : 4 ≤ j
    · exact idle_of_small h (n := 4) (by decide +kernel) h4
    · match j, h4 with
      | 0, _ => exact hi 0 hx.1
      | 1, _ => exact hi 1 hx.2.1
      | 2, _ => exact hi 2 hx.2.2.1
      | 3, _ => exact hi 3 hx.2.2.2.1
      | n + 4, h4 => omega)
  exact ⟨s, n, s', h, h1, h2⟩

/-- Two producers, bounded, and a consumer that is left when it has to move on to the next block. -/
def halfWay : List (Act Nat) :=
  inTurn 1 (init Nat) [(0, .add), (1, .enq 1 false), (2, .enq 2 false), (0, .deq)] ++ [.start 0 .deq] ++ goN 0 4

example : ∃ s n s', run 1 (init Nat) halfWay = some s ∧ s.pc 0 = .d5 0 1 ∧ run 1 s (goN 0 n) = some s' ∧ Idle s' 0 := by
  have e : (run 1 (init Nat) halfWay).map (fun s => (List.range 3).map s.pc) = some [.d5 0 1, .idle .yes, .idle .yes] := by decide +kernel
  obtain ⟨s, h, hx⟩ := Option.map_eq_some_iff.mp e
  simp only [show List.range 3 = [0, 1, 2] from rfl, List.map_cons, List.map_nil, List.cons.injEq] at hx
  have hb : ∀ a ∈ halfWay, (match a with | .start _ (.enq _ true) => false | _ => true) = true := by decide +kernel
  obtain ⟨n, s', h1, h2⟩ := C105_bounded_partial (c := 0) (i := 0) (by omega) (by decide +kernel) (.inl (fun a ha i e he => by subst he; simpa using hb _ ha)) h (fun j hj => by
    by_cases h3 : 3 ≤ j
    · exact idle_of_small h (n := 3) (by decide +kernel) h3
    · match j, h3, hj with
      | 1, _, _ => exact ⟨_, hx.2.1⟩
      | 2, _, _ => exact ⟨_, hx.2.2.1⟩
      | n + 3, h3, _ => omega)
  exact ⟨s, n, s', h, hx.1, h1, h2⟩

end Salticidae
