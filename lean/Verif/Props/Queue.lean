import Verif.Spec.Queue
import Verif.Lemmas.QueueRun
import Verif.Lemmas.QueueSpec
import Verif.Lemmas.QueueCheck
/-!
Properties C34, C36 and C37: the queues.
-/
namespace Salticidae
open Queue Spec.Queue

namespace Queue

variable {α : Type} [DecidableEq α]

/-- n steps of thread i. -/
def goN {α : Type} (i n : Nat) : List (Act α) := List.replicate n (.go i true)

/-- Steps of the given threads. -/
def go {α : Type} (l : List Nat) : List (Act α) := l.map (.go · true)

/-- Thread i runs until its operation returns. -/
def alone {α : Type} (B : Nat) : Nat → St α → Nat → List (Act α) × St α
  | 0, s, _ => ([], s)
  | f + 1, s, i =>
    match s.pc i with
    | .idle _ => ([], s)
    | _ => match step B s (.go i true) with
      | some s' => (.go i true :: (alone B f s' i).1, (alone B f s' i).2)
      | none => ([], s)

/-- One operation after the other. -/
def inTurn {α : Type} (B : Nat) : St α → List (Nat × Call α) → List (Act α)
  | _, [] => []
  | s, (i, c) :: l =>
    match step B s (.start i c) with
    | some s' => .start i c :: (alone B 100 s' i).1 ++ inTurn B (alone B 100 s' i).2 l
    | none => []

theorem legal_of_inv {B : Nat} {m : Mode} {s : St α} (k : Inv B m s) : ∃ q, replay empty s.log = some q := by
  obtain ⟨q, h, _⟩ := k.leg
  exact ⟨q, h⟩

/-- Starts are the only source of calls. -/
theorem local_log {B : Nat} {s s' : St α} {i : Nat} {ch : Bool} {r : FreeList.Res} (h : localStep B s i ch r = some s') :
    ∃ l, s'.log = s.log ++ l ∧ ∀ j c, .call j c ∉ l := by
  simp only [localStep] at h
  cases hp : s.pc i <;>
    simp only [hp, enqStep, deqStep, rewStep, mpmcStep, addStep, Option.none_or, Option.or_none, Option.some_or, gotBlk] at h
  all_goals (repeat' split at h)
  all_goals first
    | (cases h; done)
    | (cases h
       simp only [St.setPc, St.call, St.setBlk, St.setStat, St.rcd, St.ret]
       first
       | (refine ⟨_, rfl, ?_⟩; simp; done)
       | (refine ⟨_, List.append_assoc _ _ _, ?_⟩; simp; done)
       | (refine ⟨[], ?_, ?_⟩ <;> simp; done))

theorem step_log {B : Nat} {s s' : St α} {a : Act α} (h : step B s a = some s') :
    (∃ i c, a = .start i c ∧ s'.log = s.log ++ [.call i c]) ∨ ∃ l, s'.log = s.log ++ l ∧ ∀ j c, .call j c ∉ l := by
  cases a with
  | start i c =>
    left
    simp only [step] at h
    split at h
    · cases h; exact ⟨i, c, rfl, rfl⟩
    · cases h
  | go i ch =>
    right
    simp only [step] at h
    split at h
    · exact local_log h
    · obtain ⟨fl, _, h2⟩ := Option.map_eq_some_iff.mp h
      subst h2
      exact ⟨[], by simp [afterMicro], by simp⟩

theorem run_calls {B : Nat} : ∀ {acts : List (Act α)} {s s' : St α}, run B s acts = some s' →
    ∀ i c, .call i c ∈ s'.log → .call i c ∈ s.log ∨ .start i c ∈ acts
  | [], s, s', h, i, c, hc => by cases h; exact .inl hc
  | a :: as, s, s', h, i, c, hc => by
    simp only [run, Option.bind_eq_some_iff] at h
    obtain ⟨s1, h1, h2⟩ := h
    rcases run_calls h2 i c hc with h3 | h3
    · rcases step_log h1 with ⟨j, d, rfl, h4⟩ | ⟨l, h4, h5⟩
      · rw [h4] at h3
        rcases List.mem_append.mp h3 with h3 | h3
        · exact .inl h3
        · simp at h3; obtain ⟨rfl, rfl⟩ := h3; exact .inr (by simp)
      · rw [h4] at h3
        rcases List.mem_append.mp h3 with h3 | h3
        · exact .inl h3
        · exact absurd h3 (h5 i c)
    · exact .inr (by simp [h3])

theorem only_of_allowed {B c : Nat} {acts : List (Act α)} {s : St α} (h : run B (init α) acts = some s)
    (ha : ∀ a ∈ acts, a.allowed (.single c)) : Only c s.log := by
  intro i x hx hk
  rcases run_calls h i x hx with h1 | h1
  · cases h1
  · have := ha _ h1
    rcases hk with rfl | rfl | ⟨e, rfl⟩
    · simp only [Act.allowed, Mode.single.injEq] at this; exact this.symm
    · simp [Act.allowed] at this
    · simp only [Act.allowed, Mode.single.injEq] at this; exact this.symm

end Queue

/-! # C34 -/

/-- C34: with one consumer the calls and returns of any threads are those of a FIFO queue.
  It is false of the code (`C34_violated`). -/
def C34_statement : Prop :=
  ∀ (α : Type) [DecidableEq α] (B c : Nat) (acts : List (Act α)) (s : Queue.St α), 0 < B → (∀ a ∈ acts, a.allowed (.single c)) →
    run B (init α) acts = some s → Linearizable s.log

/-- Producer 2 links block 1 and is about to clear its mark; producer 3 has read that block as the queue's tail.  The block is filled, used up and given back; then producer 2 clears
the mark the free list has set, so that producer 3 takes the block, which producer 4 has just popped, for the tail: its element 9 goes into a block that is not in the queue. -/
def lateClear : List (Act Nat) :=
  [.start 1 (.enq 1 true)] ++ goN 1 11 ++ [.start 2 (.enq 2 true)] ++ goN 2 13 ++ [.start 3 (.enq 9 true)] ++ goN 3 1 ++ [.start 1 (.enq 3 true)] ++ goN 1 11 ++
  [.start 0 .deq] ++ goN 0 7 ++ [.start 0 .deq] ++ goN 0 15 ++ [.start 1 (.enq 4 true)] ++ goN 1 28 ++ [.start 0 .deq] ++ goN 0 19 ++ goN 2 1 ++
  [.start 4 (.enq 5 true)] ++ goN 4 15 ++ goN 3 10 ++ [.start 0 .deq] ++ goN 0 4

theorem lateClear_allowed : ∀ a ∈ lateClear, a.allowed (.single 0) := by decide +kernel

theorem lateClear_log : (run 1 (init Nat) lateClear).map (·.log) = some
    [.call 1 (.enq 1 true), .enq 1 1, .ret 1 .yes, .call 2 (.enq 2 true), .call 3 (.enq 9 true), .call 1 (.enq 3 true), .enq 1 3, .ret 1 .yes,
     .call 0 .deq, .take 0, .ret 0 (.val (some 1)), .call 0 .deq, .take 0, .ret 0 (.val (some 3)), .call 1 (.enq 4 true), .enq 1 4, .ret 1 .yes,
     .call 0 .deq, .take 0, .ret 0 (.val (some 4)), .call 4 (.enq 5 true), .enq 3 9, .ret 3 .yes, .call 0 .deq, .empty 0, .ret 0 .no] := by
  decide +kernel

/-- A producer that clears the mark of a block late makes another take a block outside the queue for its tail: an element of an enqueue that returned true is lost. -/
theorem C34_violated : ¬ C34_statement := by
  intro h
  have hl := lateClear_log
  obtain ⟨s, hs, hlog⟩ := Option.map_eq_some_iff.mp hl
  have hlin := h Nat 1 0 lateClear s (by omega) lateClear_allowed hs
  have hon := only_of_allowed hs lateClear_allowed
  rw [hlog] at hlin hon
  have := found_nothing (c := 0) (d := .deq)
    (o := [.call 1 (.enq 1 true), .ret 1 .yes, .call 2 (.enq 2 true), .call 3 (.enq 9 true), .call 1 (.enq 3 true), .ret 1 .yes,
     .call 0 .deq, .ret 0 (.val (some 1)), .call 0 .deq, .ret 0 (.val (some 3)), .call 1 (.enq 4 true), .ret 1 .yes,
     .call 0 .deq, .ret 0 (.val (some 4)), .call 4 (.enq 5 true), .ret 3 .yes]) hlin hon (by simp) (.inl rfl) (by simp [observed]) 3 9
  revert this
  decide

/-- One consumer, any producers: a FIFO queue, if no block is given back while the producer that linked it in an unbounded enqueue is still about to clear its mark. -/
theorem C34_timely_partial {α : Type} [DecidableEq α] {B c : Nat} {acts : List (Act α)} {s : Queue.St α} (hB : 0 < B)
    (ha : ∀ a ∈ acts, a.allowed (.single c)) (ht : Timely B acts) (h : run B (init α) acts = some s) : Linearizable s.log :=
  ⟨s.log, rfl, legal_of_inv (inv_run hB (inv_init B _) idle_init h ha ht (fun e => by cases e)).1⟩

/-- So it is when every enqueue is bounded, … -/
theorem C34_bounded_partial {α : Type} [DecidableEq α] {B c : Nat} {acts : List (Act α)} {s : Queue.St α} (hB : 0 < B)
    (ha : ∀ a ∈ acts, a.allowed (.single c)) (hb : ∀ a ∈ acts, ∀ i e, a ≠ .start i (.enq e true)) (h : run B (init α) acts = some s) :
    Linearizable s.log :=
  C34_timely_partial hB ha (timely_bounded (fun _ => rfl) hb) h

theorem sole_init {α : Type} (p : Nat) : Sole p (init α) := ⟨fun _ h => by simp [init, Pc.prod] at h, fun _ _ _ _ h => by simp [init] at h⟩

/-- … and when there is one producer. -/
theorem C34_single_producer_partial {α : Type} [DecidableEq α] {B c p : Nat} {acts : List (Act α)} {s : Queue.St α} (hB : 0 < B)
    (ha : ∀ a ∈ acts, a.allowed (.single c)) (hp : ∀ a ∈ acts, ∀ i e u, a = .start i (.enq e u) → i = p) (h : run B (init α) acts = some s) :
    Linearizable s.log :=
  C34_timely_partial hB ha (timely_sole hB (inv_init B (.single c)) idle_init (sole_init p) ha (fun e => by cases e) hp) h

/-- Without rewinds, what has been dequeued is, in this order, the beginning of what has been enqueued; and what each thread has enqueued is there in the order of its calls. -/
theorem C34_fifo_partial {α : Type} [DecidableEq α] {B c : Nat} {acts : List (Act α)} {s : Queue.St α} (hB : 0 < B)
    (ha : ∀ a ∈ acts, a.allowed (.single c)) (ht : Timely B acts) (hr : ∀ i e, .start i (.rewind e) ∉ acts) (h : run B (init α) acts = some s) :
    dequeued s.log <+: enqueued s.log ∧
    ∀ i, (enqueuedBy i s.log).Sublist (enqueued s.log) ∧ (enqueuedBy i s.log = accepted i s.log ∨ ∃ e, enqueuedBy i s.log = accepted i s.log ++ [e]) := by
  obtain ⟨q, hq⟩ := legal_of_inv (inv_run hB (inv_init B _) idle_init h ha ht (fun e => by cases e)).1
  refine ⟨?_, fun i => ⟨enqueuedBy_sublist i _, program_order_prefix hq i⟩⟩
  have := (fifo s.log q hq (only_of_allowed h ha) (fun i e hx => ?_)).1
  · rw [this, List.append_assoc]; exact List.prefix_append _ _
  · rcases run_calls h i _ hx with h1 | h1
    · cases h1
    · exact hr i e h1

/-- A dequeue that finds nothing: everything whose enqueue had returned before the dequeue was called has been dequeued. -/
theorem C34_empty_partial {α : Type} [DecidableEq α] {B c : Nat} {acts : List (Act α)} {s : Queue.St α} {o : List (Ev α)} (hB : 0 < B)
    (ha : ∀ a ∈ acts, a.allowed (.single c)) (ht : Timely B acts) (hr : ∀ i e, .start i (.rewind e) ∉ acts) (h : run B (init α) acts = some s)
    (ho : observed s.log = o ++ [.call c .deq, .ret c .no]) : ∀ i x, x ∈ accepted i o → x ∈ dequeued o :=
  found_nothing (C34_timely_partial hB ha ht h) (only_of_allowed h ha)
    (fun i e hx => by
      rcases run_calls h i _ hx with h1 | h1
      · cases h1
      · exact hr i e h1) (.inl rfl) ho

/-- When no operation is running, and a dequeue that runs alone then finds nothing: every element enqueued has been dequeued exactly once, and nothing else has; in the order of the calls of each producer. -/
theorem C34_drained_partial {α : Type} [DecidableEq α] {B c n : Nat} {acts : List (Act α)} {s : Queue.St α} {l mid : List (Ev α)} (hB : 0 < B)
    (ha : ∀ a ∈ acts, a.allowed (.single c)) (ht : Timely B acts) (hr : ∀ i e, .start i (.rewind e) ∉ acts) (h : run B (init α) acts = some s)
    (hl : s.log = l ++ .call c .deq :: mid ++ [.ret c .no]) (hq : Quiet l) (hn : ∀ e ∈ l, threadOf e < n) (hm : ∀ e ∈ mid, threadOf e = c) (hm' : ofThread c mid = []) :
    ((List.range n).flatMap (fun j => accepted j l)).Perm (dequeued l) ∧ ∀ j, (accepted j l).Sublist (dequeued l) := by
  obtain ⟨q, hq'⟩ := legal_of_inv (inv_run hB (inv_init B _) idle_init h ha ht (fun e => by cases e)).1
  have hsub : ∀ i x, .call i x ∈ l → .call i x ∈ s.log := fun i x hx => by rw [hl]; simp [hx]
  have hno : ∀ i e, Ev.call i (.rewind e) ∉ l := by
    intro i e hx
    rcases run_calls h i (.rewind e) (hsub _ _ hx) with h1 | h1
    · cases h1
    · exact hr i e h1
  have hon : Only c l := fun i x hx => only_of_allowed h ha i x (hsub i x hx)
  rw [hl] at hq'
  have hd := drained (.inl rfl) hq' hq hn hm hm'
  rw [List.append_assoc, replay_append, Option.bind_eq_some_iff] at hq'
  obtain ⟨q1, hq1, h2⟩ := hq'
  rw [rewound_nil hq1 hno, List.append_nil] at hd
  refine ⟨hd.1, fun j => ?_⟩
  have hf := (fifo l q1 hq1 hon hno).1
  rw [quiet_doing hq1 hq, alone_empty (.inl rfl) hm hm' h2] at hf
  simp only [pend, List.append_nil] at hf
  rw [← hf]; exact hd.2 j

/-- Two producers and the consumer, at every step one of them; blocks of one element, three of them, two used again. -/
def mpscRun : List (Act Nat) :=
  [.start 2 (.enq 2 true), .start 0 .deq] ++ go [0] ++ [.start 1 (.enq 1 true)] ++ go [2, 1, 2, 2, 2, 2, 0, 1, 1, 1, 2, 2, 1, 1, 2, 1, 2, 2, 2, 1, 0] ++ [.start 2 (.enq 4 true)] ++
  go [2, 2, 2, 2, 2, 0, 0, 0, 2, 0, 1, 1, 2, 2, 1, 1, 1] ++ [.start 0 .deq] ++
  go [1, 1, 2, 0, 1, 0, 0, 2, 0, 0, 1, 2, 1, 2, 0, 0, 1, 2, 1, 0, 1, 2, 1, 2, 2, 0, 1, 2, 0, 0, 0, 0, 1, 0, 1, 1, 2, 1, 0, 0, 2, 1, 2, 2, 0] ++
  [.start 0 .deq, .start 1 (.enq 3 true)] ++
  go [2, 0, 0, 1, 2, 0, 0, 1, 1, 2, 2, 1, 1, 1, 2, 1, 2, 2, 2, 2, 2, 1, 1, 2, 1, 2, 1, 1, 1, 1, 2, 2, 2, 2, 1, 1, 1, 2, 2, 1, 2, 2, 1, 1, 2, 2, 1, 2, 2, 2, 1, 1, 1, 1, 1, 1, 2, 1, 1, 1, 2, 1, 1, 1] ++
  goN 2 39 ++ [.start 0 .deq] ++ goN 0 19 ++ [.start 0 .deq] ++ goN 0 19 ++ [.start 0 .deq] ++ goN 0 4

theorem mpscRun_allowed : ∀ a ∈ mpscRun, a.allowed (.single 0) := by decide +kernel
theorem mpscRun_norewind : ∀ i e, Act.start i (.rewind e) ∉ mpscRun := by
  have : ∀ a ∈ mpscRun, (match a with | .start _ (.rewind _) => false | _ => true) = true := by decide +kernel
  intro i e h
  exact absurd (this _ h) (by simp)
theorem mpscRun_timely : Timely 1 mpscRun := timely_of_check 3 (by decide +kernel) (by decide +kernel)
theorem mpscRun_log : (run 1 (init Nat) mpscRun).map (·.log) = some
    ([.call 2 (.enq 2 true), .call 0 .deq, .call 1 (.enq 1 true), .enq 2 2, .ret 2 .yes, .call 2 (.enq 4 true), .take 0, .ret 0 (.val (some 2)), .call 0 .deq, .enq 1 1, .take 0, .ret 1 .yes,
      .ret 0 (.val (some 1)), .call 0 .deq, .call 1 (.enq 3 true), .empty 0, .ret 0 .no, .enq 1 3, .ret 1 .yes, .enq 2 4, .ret 2 .yes, .call 0 .deq, .take 0, .ret 0 (.val (some 3)),
      .call 0 .deq, .take 0, .ret 0 (.val (some 4))] ++ .call 0 .deq :: [.empty 0] ++ [.ret 0 .no]) := by decide +kernel

example : ∃ s, run 1 (init Nat) mpscRun = some s ∧ Linearizable s.log ∧ dequeued s.log = [2, 1, 3, 4] := by
  obtain ⟨s, h, hl⟩ := Option.map_eq_some_iff.mp mpscRun_log
  exact ⟨s, h, C34_timely_partial (by omega) mpscRun_allowed mpscRun_timely h, by rw [hl]; decide⟩

/-- The conditions of the other theorems are met by it. -/
example : ∃ s, run 1 (init Nat) mpscRun = some s ∧ dequeued s.log <+: enqueued s.log ∧ accepted 1 s.log = [1, 3] ∧ accepted 2 s.log = [2, 4] := by
  obtain ⟨s, h, hl⟩ := Option.map_eq_some_iff.mp mpscRun_log
  exact ⟨s, h, (C34_fifo_partial (by omega) mpscRun_allowed mpscRun_timely mpscRun_norewind h).1, by rw [hl]; decide, by rw [hl]; decide⟩

example : ∃ s l, run 1 (init Nat) mpscRun = some s ∧ ((List.range 3).flatMap (fun j => accepted j l)).Perm (dequeued l) ∧ dequeued l = [2, 1, 3, 4] := by
  obtain ⟨s, h, hl⟩ := Option.map_eq_some_iff.mp mpscRun_log
  refine ⟨s, _, h, (C34_drained_partial (by omega) mpscRun_allowed mpscRun_timely mpscRun_norewind h hl ?_ (by decide) (by decide) (by decide)).1, by decide⟩
  intro i c
  by_cases h0 : i = 0
  · subst h0; simp [ofThread]
  · by_cases h1 : i = 1
    · subst h1; simp [ofThread]
    · by_cases h2 : i = 2
      · subst h2; simp [ofThread]
      · have e0 : ¬ 0 = i := fun e => h0 e.symm
        have e1 : ¬ 1 = i := fun e => h1 e.symm
        have e2 : ¬ 2 = i := fun e => h2 e.symm
        simp [ofThread, e0, e1, e2]

example : ∃ s o, run 1 (init Nat) mpscRun = some s ∧ (∀ i x, x ∈ accepted i o → x ∈ dequeued o) ∧ accepted 2 o = [2, 4] := by
  obtain ⟨s, h, hl⟩ := Option.map_eq_some_iff.mp mpscRun_log
  refine ⟨s, _, h, C34_empty_partial (c := 0) (by omega) mpscRun_allowed mpscRun_timely mpscRun_norewind h (o := [.call 2 (.enq 2 true), .call 0 .deq, .call 1 (.enq 1 true), .ret 2 .yes, .call 2 (.enq 4 true),
      .ret 0 (.val (some 2)), .call 0 .deq, .ret 1 .yes, .ret 0 (.val (some 1)), .call 0 .deq, .call 1 (.enq 3 true), .ret 0 .no, .ret 1 .yes, .ret 2 .yes, .call 0 .deq, .ret 0 (.val (some 3)),
      .call 0 .deq, .ret 0 (.val (some 4))]) (by rw [hl]; decide), by decide⟩

/-- Bounded enqueues of two producers, the last refused; capacity one block of two elements. -/
def boundedRun : List (Act Nat) :=
  inTurn 2 (init Nat) [(1, .add), (1, .enq 1 false), (2, .enq 2 false), (1, .enq 3 false), (2, .enq 4 false), (1, .enq 5 false), (0, .deq), (0, .deq), (0, .deq), (2, .enq 6 false), (0, .deq), (0, .deq), (0, .deq)]

example : ∃ s, run 2 (init Nat) boundedRun = some s ∧ Linearizable s.log ∧ dequeued s.log = [1, 2, 3, 4, 6] := by
  have e : (run 2 (init Nat) boundedRun).map (fun s => dequeued s.log) = some [1, 2, 3, 4, 6] := by decide +kernel
  obtain ⟨s, h, hl⟩ := Option.map_eq_some_iff.mp e
  refine ⟨s, h, C34_bounded_partial (c := 0) (by omega) (by decide +kernel) ?_ h, hl⟩
  have : ∀ a ∈ boundedRun, (match a with | .start _ (.enq _ true) => false | _ => true) = true := by decide +kernel
  intro a ha i x hx
  subst hx
  exact absurd (this _ ha) (by simp)

/-! # C36 -/

/-- C36: when the consumer puts an element back and then dequeues, it gets that element.  False of the code (`C36_violated`). -/
def C36_statement : Prop :=
  ∀ (α : Type) [DecidableEq α] (B c : Nat) (acts : List (Act α)) (s : Queue.St α) (e : α) (x r : Ret α) (p p' : List (Ev α)), 0 < B →
    (∀ a ∈ acts, a.allowed (.single c)) → run B (init α) acts = some s →
    ofThread c s.log = p ++ [.call c (.rewind e), .ret c x, .call c .deq, .ret c r] ++ p' → x = .yes ∧ r = .val (some e)

/-- Producer 2 is late as above; the block is used by `rewind` when producer 3 takes it for the queue's tail, and writes over the element put back. -/
def lateWrite : List (Act Nat) :=
  [.start 1 (.enq 1 true)] ++ goN 1 11 ++ [.start 2 (.enq 2 true)] ++ goN 2 13 ++ [.start 3 (.enq 9 true)] ++ goN 3 1 ++ [.start 1 (.enq 3 true)] ++ goN 1 11 ++
  [.start 0 .deq] ++ goN 0 7 ++ [.start 0 .deq] ++ goN 0 15 ++ [.start 1 (.enq 4 true)] ++ goN 1 28 ++ [.start 0 .deq] ++ goN 0 19 ++
  [.start 4 (.enq 5 true)] ++ goN 4 16 ++ [.go 4 false] ++ goN 4 9 ++ goN 2 1 ++ [.start 0 (.rewind 7)] ++ goN 0 7 ++ [.start 0 (.rewind 8)] ++ goN 0 9 ++
  goN 3 5 ++ goN 0 9 ++ [.go 3 true] ++ [.start 0 .deq] ++ goN 0 7

theorem lateWrite_allowed : ∀ a ∈ lateWrite, a.allowed (.single 0) := by decide +kernel

theorem lateWrite_log : (run 1 (init Nat) lateWrite).map (fun s => ofThread 0 s.log) = some
    ([.call 0 .deq, .ret 0 (.val (some 1)), .call 0 .deq, .ret 0 (.val (some 3)), .call 0 .deq, .ret 0 (.val (some 4)), .call 0 (.rewind 7), .ret 0 .yes] ++
     [.call 0 (.rewind 8), .ret 0 .yes, .call 0 .deq, .ret 0 (.val (some 9))]) := by
  decide +kernel

/-- The consumer puts 8 back and dequeues 9: a late producer takes the block used by `rewind` for the queue's tail and overwrites the element. -/
theorem C36_violated : ¬ C36_statement := by
  intro h
  obtain ⟨s, hs, hlog⟩ := Option.map_eq_some_iff.mp lateWrite_log
  have := h Nat 1 0 lateWrite s 8 .yes (.val (some 9)) _ [] (by omega) lateWrite_allowed hs (by rw [List.append_nil]; exact hlog)
  simp at this

/-- It does, wherever in the history and in the blocks, if no block is given back while the producer that linked it in an unbounded enqueue is still about to clear its mark; … -/
theorem C36_timely_partial {α : Type} [DecidableEq α] {B c : Nat} {acts : List (Act α)} {s : Queue.St α} {e : α} {x r : Ret α} {p p' : List (Ev α)} (hB : 0 < B)
    (ha : ∀ a ∈ acts, a.allowed (.single c)) (ht : Timely B acts) (h : run B (init α) acts = some s)
    (ho : ofThread c s.log = p ++ [.call c (.rewind e), .ret c x, .call c .deq, .ret c r] ++ p') : x = .yes ∧ r = .val (some e) := by
  obtain ⟨q, hq⟩ := legal_of_inv (inv_run hB (inv_init B _) idle_init h ha ht (fun e => by cases e)).1
  exact rewind_deq_at hq (only_of_allowed h ha) (.inl rfl) ho

/-- … so it does when every enqueue is bounded, … -/
theorem C36_bounded_partial {α : Type} [DecidableEq α] {B c : Nat} {acts : List (Act α)} {s : Queue.St α} {e : α} {x r : Ret α} {p p' : List (Ev α)} (hB : 0 < B)
    (ha : ∀ a ∈ acts, a.allowed (.single c)) (hb : ∀ a ∈ acts, ∀ i e, a ≠ .start i (.enq e true)) (h : run B (init α) acts = some s)
    (ho : ofThread c s.log = p ++ [.call c (.rewind e), .ret c x, .call c .deq, .ret c r] ++ p') : x = .yes ∧ r = .val (some e) :=
  C36_timely_partial hB ha (timely_bounded (fun _ => rfl) hb) h ho

/-- … and when there is one producer. -/
theorem C36_single_producer_partial {α : Type} [DecidableEq α] {B c k : Nat} {acts : List (Act α)} {s : Queue.St α} {e : α} {x r : Ret α} {p p' : List (Ev α)} (hB : 0 < B)
    (ha : ∀ a ∈ acts, a.allowed (.single c)) (hp : ∀ a ∈ acts, ∀ i e u, a = .start i (.enq e u) → i = k) (h : run B (init α) acts = some s)
    (ho : ofThread c s.log = p ++ [.call c (.rewind e), .ret c x, .call c .deq, .ret c r] ++ p') : x = .yes ∧ r = .val (some e) :=
  C36_timely_partial hB ha (timely_sole hB (inv_init B (.single c)) idle_init (sole_init k) ha (fun e => by cases e) hp) h ho

/-- Back over the boundary between blocks. -/
def rewindRun : List (Act Nat) :=
  inTurn 1 (init Nat) [(1, .enq 1 true), (1, .enq 2 true), (0, .deq), (0, .deq), (0, .rewind 2), (0, .rewind 1), (0, .deq), (0, .deq), (0, .deq)]

example : ∃ s, run 1 (init Nat) rewindRun = some s ∧ Ret.val (some 1) = Ret.val (some 1) ∧ ofThread 0 s.log =
    [.call 0 .deq, .ret 0 (.val (some 1)), .call 0 .deq, .ret 0 (.val (some 2)), .call 0 (.rewind 2), .ret 0 .yes] ++
      [.call 0 (.rewind 1), .ret 0 .yes, .call 0 .deq, .ret 0 (.val (some 1))] ++ [.call 0 .deq, .ret 0 (.val (some 2)), .call 0 .deq, .ret 0 .no] := by
  have e : (run 1 (init Nat) rewindRun).map (fun s => ofThread 0 s.log) = some ([.call 0 .deq, .ret 0 (.val (some 1)), .call 0 .deq, .ret 0 (.val (some 2)), .call 0 (.rewind 2), .ret 0 .yes] ++
      [.call 0 (.rewind 1), .ret 0 .yes, .call 0 .deq, .ret 0 (.val (some 1))] ++ [.call 0 .deq, .ret 0 (.val (some 2)), .call 0 .deq, .ret 0 .no]) := by decide +kernel
  obtain ⟨s, h, hl⟩ := Option.map_eq_some_iff.mp e
  refine ⟨s, h, (C36_single_producer_partial (c := 0) (k := 1) (by omega) (by decide +kernel) ?_ h hl).2, hl⟩
  have : ∀ a ∈ rewindRun, (match a with | .start i (.enq _ _) => i == 1 | _ => true) = true := by decide +kernel
  intro a ha i x u hx
  subst hx
  simpa using this _ ha

/-! # C37 -/

/-- C37: any producers and consumers; when no operation is running, and a dequeue that runs alone then finds nothing, then every element enqueued
has been dequeued exactly once, and nothing else has.  False of the code (`C37_violated`). -/
def C37_statement : Prop :=
  ∀ (α : Type) [DecidableEq α] (B : Nat) (acts : List (Act α)) (s : Queue.St α) (l mid : List (Ev α)) (i n : Nat), 0 < B →
    (∀ a ∈ acts, a.allowed .multi) → run B (init α) acts = some s →
    s.log = l ++ .call i .deqM :: mid ++ [.ret i .no] → Quiet l → (∀ e ∈ l, threadOf e < n) → (∀ e ∈ mid, threadOf e = i) → ofThread i mid = [] →
    ((List.range n).flatMap (fun j => accepted j l)).Perm (dequeued l)

/-- Consumer 1 reads the queue's head, block 0, which is then used up and popped by producer 3; only now does it get its reference, and reads, in the block that is not in the queue, the next pointer
to block 1.  The blocks change places in the queue: now its compare-exchange of the head from 0 to 1 leaves out block 0, and the element 3 in it. -/
def staleHead : List (Act Nat) :=
  [.start 3 (.enq 1 true)] ++ goN 3 11 ++ [.start 3 (.enq 2 true)] ++ goN 3 28 ++ [.start 2 .deqM] ++ goN 2 12 ++ [.start 1 .deqM] ++ goN 1 1 ++ [.start 2 .deqM] ++ goN 2 28 ++
  [.start 3 (.enq 3 true)] ++ goN 3 13 ++ goN 1 5 ++ goN 3 20 ++ [.start 2 .deqM] ++ goN 2 10 ++ goN 2 6 ++ [.start 3 (.enq 4 true)] ++ goN 3 33 ++ goN 1 22 ++ goN 2 8 ++
  [.start 2 .deqM] ++ goN 2 8

theorem staleHead_allowed : ∀ a ∈ staleHead, a.allowed .multi := by decide +kernel

theorem staleHead_log : (run 1 (init Nat) staleHead).map (·.log) = some
    ([.call 3 (.enq 1 true), .enq 3 1, .ret 3 .yes, .call 3 (.enq 2 true), .enq 3 2, .ret 3 .yes, .call 2 .deqM, .take 2, .ret 2 (.val (some 1)), .call 1 .deqM,
      .call 2 .deqM, .take 2, .ret 2 (.val (some 2)), .call 3 (.enq 3 true), .enq 3 3, .ret 3 .yes, .call 2 .deqM, .call 3 (.enq 4 true), .enq 3 4, .ret 3 .yes,
      .take 1, .ret 1 (.val (some 4)), .empty 2, .ret 2 .no] ++ .call 2 .deqM :: [.empty 2] ++ [.ret 2 .no]) := by
  decide +kernel

/-- An element is lost and try_dequeue says the queue is empty: a late consumer moves the head past a block that is in use again. -/
theorem C37_violated : ¬ C37_statement := by
  intro h
  obtain ⟨s, hs, hlog⟩ := Option.map_eq_some_iff.mp staleHead_log
  have := h Nat 1 staleHead s _ _ 2 4 (by omega) staleHead_allowed hs hlog ?_ (by decide) (by decide) (by decide)
  · exact absurd this (by decide)
  · intro i c
    by_cases h1 : i = 1
    · subst h1; simp [ofThread]
    · by_cases h2 : i = 2
      · subst h2; simp [ofThread]
      · by_cases h3 : i = 3
        · subst h3; simp [ofThread]
        · have e1 : ¬ 1 = i := fun e => h1 e.symm
          have e2 : ¬ 2 = i := fun e => h2 e.symm
          have e3 : ¬ 3 = i := fun e => h3 e.symm
          simp [ofThread, e1, e2, e3]

/-- It is so (and the calls and returns are those of a FIFO queue) if no block is given back while the producer that linked it in an unbounded enqueue is still about to clear its mark, and no consumer gets
its reference to the block it read as the queue's head when the head has moved on. -/
theorem C37_conserved_partial {α : Type} [DecidableEq α] {B : Nat} {acts : List (Act α)} {s : Queue.St α} {l mid : List (Ev α)} {i n : Nat} (hB : 0 < B)
    (ha : ∀ a ∈ acts, a.allowed .multi) (ht : Timely B acts) (hf : Fresh B acts) (h : run B (init α) acts = some s)
    (hl : s.log = l ++ .call i .deqM :: mid ++ [.ret i .no]) (hq : Quiet l) (hn : ∀ e ∈ l, threadOf e < n) (hm : ∀ e ∈ mid, threadOf e = i) (hm' : ofThread i mid = []) :
    ((List.range n).flatMap (fun j => accepted j l)).Perm (dequeued l) := by
  obtain ⟨q, hq'⟩ := legal_of_inv (inv_run hB (inv_init B _) idle_init h ha ht (fun _ => hf)).1
  rw [hl] at hq'
  have hrw : rewound l = [] := by
    have hq2 := hq'
    rw [List.append_assoc, replay_append, Option.bind_eq_some_iff] at hq2
    obtain ⟨q1, hq1, _⟩ := hq2
    refine rewound_nil hq1 (fun j e hx => ?_)
    rcases run_calls h j (.rewind e) (by rw [hl]; simp [hx]) with h1 | h1
    · cases h1
    · have := ha _ h1; simp [Act.allowed] at this
  have := (drained (.inr rfl) hq' hq hn hm hm').1
  rwa [hrw, List.append_nil] at this

/-- In timely executions in which no consumer acts on a block that has been reused since it read the head, the calls and returns are those of a FIFO queue.  Missing: the other executions. -/
theorem C37_linearizable_partial {α : Type} [DecidableEq α] {B : Nat} {acts : List (Act α)} {s : Queue.St α} (hB : 0 < B)
    (ha : ∀ a ∈ acts, a.allowed .multi) (ht : Timely B acts) (hf : Fresh B acts) (h : run B (init α) acts = some s) : Linearizable s.log :=
  ⟨s.log, rfl, legal_of_inv (inv_run hB (inv_init B _) idle_init h ha ht (fun _ => hf)).1⟩

/-- Two producers and two consumers, at every step one of them; blocks of one element. -/
def mpmcRun : List (Act Nat) :=
  [.start 3 .deqM] ++
  [.start 1 (.enq 1 true)] ++
  [.start 0 .deqM] ++
  go [1, 3, 3, 0, 0, 0, 0, 1, 3] ++
  [.start 2 (.enq 2 true)] ++
  go [1, 1, 1, 0, 0, 1, 2, 2, 1, 0, 3, 1, 3, 3, 3, 3, 3, 2, 1] ++
  [.start 0 .deqM] ++
  go [0, 2, 2, 3, 2, 3, 2, 3, 1, 1, 2, 2, 3, 2, 0] ++
  [.start 1 (.enq 3 true)] ++
  go [2, 1, 1, 1, 0, 0, 1, 2, 3, 0, 3, 2, 3] ++
  [.start 3 .deqM] ++
  go [0, 2, 1, 1, 1, 3, 0, 1, 2, 3, 3, 1, 3, 0, 2, 2, 0, 1, 3, 2, 1, 1, 3, 0, 1, 1, 1, 2, 1, 0, 1, 3, 1, 0, 2, 3, 0, 2, 3, 1, 1, 3, 1, 0, 0, 3, 2, 1, 0, 3, 1, 0, 1, 1, 1, 0, 0, 3, 0, 1, 0, 0, 3, 2, 1, 1, 2, 0, 2, 3, 1, 0, 2, 2, 2, 2, 0, 1, 3, 2, 2, 1, 2, 2, 0, 3, 2, 2, 3, 0, 2, 0, 3, 2, 3, 3, 0, 0, 0, 0] ++
  [.start 0 .deqM] ++
  go [0, 2, 2, 2, 2, 0, 0, 2, 0, 2, 2, 0, 2, 2, 0, 2, 0, 2, 2, 2, 2, 0, 0, 2, 0, 2, 0, 0, 2] ++
  [.start 2 (.enq 4 true)] ++
  go [2, 0, 2, 2, 2, 0, 0, 0, 0, 0, 2, 0, 2, 0, 2, 2, 0, 2, 2, 2, 0, 2, 0, 0, 0, 0, 2, 0, 0, 2, 2, 2, 2, 2, 2, 2, 2, 2, 2, 2, 2, 2, 2, 2, 2, 2, 2, 2, 2] ++
  [.start 3 .deqM] ++
  goN 3 28 ++
  [.start 3 .deqM] ++
  goN 3 8

theorem mpmcRun_allowed : ∀ a ∈ mpmcRun, a.allowed .multi := by decide +kernel
theorem mpmcRun_timely : Timely 1 mpmcRun := timely_of_check 4 (by decide +kernel) (by decide +kernel)
theorem mpmcRun_fresh : Fresh 1 mpmcRun := fresh_of_check (by decide +kernel)
theorem mpmcRun_log : (run 1 (init Nat) mpmcRun).map (·.log) = some
    ([.call 3 .deqM, .call 1 (.enq 1 true), .call 0 .deqM, .call 2 (.enq 2 true), .empty 0, .enq 1 1, .ret 0 .no, .call 0 .deqM, .take 3, .ret 1 .yes, .call 1 (.enq 3 true), .ret 3 (.val (some 1)), .call 3 .deqM, .enq 1 3, .take 3,
      .ret 1 .yes, .ret 3 (.val (some 3)), .empty 0, .ret 0 .no, .call 0 .deqM, .enq 2 2, .ret 2 .yes, .call 2 (.enq 4 true), .take 0, .ret 0 (.val (some 2)), .enq 2 4, .ret 2 .yes, .call 3 .deqM, .take 3, .ret 3 (.val (some 4))] ++ .call 3 .deqM :: [.empty 3] ++ [.ret 3 .no]) := by decide +kernel

example : ∃ s l, run 1 (init Nat) mpmcRun = some s ∧ Linearizable s.log ∧ ((List.range 4).flatMap (fun j => accepted j l)).Perm (dequeued l) ∧ dequeued l = [1, 3, 2, 4] := by
  obtain ⟨s, h, hl⟩ := Option.map_eq_some_iff.mp mpmcRun_log
  refine ⟨s, _, h, C37_linearizable_partial (by omega) mpmcRun_allowed mpmcRun_timely mpmcRun_fresh h,
    C37_conserved_partial (by omega) mpmcRun_allowed mpmcRun_timely mpmcRun_fresh h hl ?_ (by decide) (by decide) (by decide), by decide⟩
  intro i c
  by_cases h0 : i = 0
  · subst h0; simp [ofThread]
  · by_cases h1 : i = 1
    · subst h1; simp [ofThread]
    · by_cases h2 : i = 2
      · subst h2; simp [ofThread]
      · by_cases h3 : i = 3
        · subst h3; simp [ofThread]
        · have e0 : ¬ 0 = i := fun e => h0 e.symm
          have e1 : ¬ 1 = i := fun e => h1 e.symm
          have e2 : ¬ 2 = i := fun e => h2 e.symm
          have e3 : ¬ 3 = i := fun e => h3 e.symm
          simp [ofThread, e0, e1, e2, e3]

end Salticidae
