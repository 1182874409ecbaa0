import Verif.Props.Queue
import Verif.Lemmas.QueueTurnRun
import Verif.Lemmas.QueueFull
/-!
Property C35: the capacity of a queue.  And what holds of the queues, without further conditions, when operations run one after the other.
-/
namespace Salticidae
open Queue Spec.Queue

/-! # C35

`acceptedCount n o` elements have been accepted and `(dequeued o).length` have been dequeued when the callers have seen `o`; the difference is what the queue holds. -/

/-- A bounded enqueue is not refused when the queue is empty. -/
def C35_never_when_empty : Prop :=
  ∀ (α : Type) [DecidableEq α] (B c n : Nat) (m : Mode) (acts : List (Act α)) (s : Queue.St α) (o : List (Ev α)) (i : Nat) (e : α) (r : Ret α), 0 < B →
    (∀ a ∈ acts, a.allowed m) → (∀ a ∈ acts, a.grows = false) → run B (init α) acts = some s → Configured B c s.log → (∀ e ∈ s.log, threadOf e < n) →
    o ++ [.call i (.enq e false), .ret i r] <+: observed s.log → acceptedCount n o = (dequeued o).length → r = .yes

/-- From empty, with operations running one after the other, a queue accepts c elements. -/
def C35_accepts_capacity : Prop :=
  ∀ (α : Type) [DecidableEq α] (B c n : Nat) (m : Mode) (acts : List (Act α)) (s : Queue.St α) (o o' : List (Ev α)) (i : Nat) (e : α) (r : Ret α), 0 < B →
    (∀ a ∈ acts, a.allowed m) → (∀ a ∈ acts, a.grows = false) → InTurn B acts → run B (init α) acts = some s → Configured B c o → (∀ e ∈ s.log, threadOf e < n) →
    o ++ o' ++ [.call i (.enq e false), .ret i r] <+: observed s.log → acceptedCount n o = (dequeued o).length → dequeued (o ++ o') = dequeued o →
    acceptedCount n (o ++ o') < acceptedCount n o + c → r = .yes

/-- It never holds more than its blocks can. -/
def C35_bounded_size : Prop :=
  ∀ (α : Type) [DecidableEq α] (B c k : Nat) (acts : List (Act α)) (s : Queue.St α), 0 < B →
    (∀ a ∈ acts, a.allowed (.single k)) → (∀ a ∈ acts, a.grows = false) → run B (init α) acts = some s → Configured B c s.log →
    ∃ q, replay empty s.log = some q ∧ q.q.length ≤ (1 + max (c / B) 1) * B

/-- C35.  The first two parts are false of the code (`C35_violated_empty`, `C35_violated_count`). -/
def C35_statement : Prop := C35_never_when_empty ∧ C35_accepts_capacity ∧ C35_bounded_size

theorem configured_blocks {α : Type} [DecidableEq α] {B c : Nat} {l : List (Ev α)} (h : Configured B c l) : blocks l = max (c / B) 1 := by
  obtain ⟨l0, l1, rfl, _, _, h3, h4⟩ := h
  simp only [blocks, List.countP_append] at h3 h4 ⊢
  rw [h3, h4]; rfl

/-- A producer is stalled in its enqueue, with a reference to block 0; so this block, when it has been used up, does not return to the free list: an enqueue is refused though the queue is empty. -/
def stalledPrefix : List (Act Nat) := inTurn 1 (init Nat) [(1, .add)] ++ [.start 2 (.enq 9 false)] ++ goN 2 4
def stalled : List (Act Nat) :=
  stalledPrefix ++ (match run 1 (init Nat) stalledPrefix with
    | some s => inTurn 1 s [(1, .enq 1 false), (0, .deq), (1, .enq 2 false), (0, .deq), (0, .deq), (1, .enq 3 false)]
    | none => [])

theorem stalled_log : (run 1 (init Nat) stalled).map (·.log) = some
    [.call 1 .add, .ret 1 .none, .call 2 (.enq 9 false), .call 1 (.enq 1 false), .enq 1 1, .ret 1 .yes, .call 0 .deq, .take 0, .ret 0 (.val (some 1)),
     .call 1 (.enq 2 false), .enq 1 2, .ret 1 .yes, .call 0 .deq, .take 0, .ret 0 (.val (some 2)), .call 0 .deq, .empty 0, .ret 0 .no, .call 1 (.enq 3 false), .refuse 1, .ret 1 .no] := by
  decide +kernel

/-- An enqueue is refused though the queue is empty: a stalled producer's reference keeps the used-up block from the free list. -/
theorem C35_violated_empty : ¬ C35_never_when_empty := by
  intro h
  obtain ⟨s, hs, hl⟩ := Option.map_eq_some_iff.mp stalled_log
  have := h Nat 1 1 3 (.single 0) stalled s
    [.call 1 .add, .ret 1 .none, .call 2 (.enq 9 false), .call 1 (.enq 1 false), .ret 1 .yes, .call 0 .deq, .ret 0 (.val (some 1)),
     .call 1 (.enq 2 false), .ret 1 .yes, .call 0 .deq, .ret 0 (.val (some 2)), .call 0 .deq, .ret 0 .no] 1 3 .no (by omega) (by decide +kernel) (by decide +kernel) hs
    ⟨[.call 1 .add, .ret 1 .none], _, by rw [hl]; rfl, quiet_of_check 2 (by decide), by simp, by decide, by decide⟩ (by rw [hl]; decide) (by rw [hl]; decide) (by decide)
  cases this

/-- Capacity 3 with blocks of two elements gives one block besides the first; the first, used up, returns to the free list only when the next is begun to be dequeued from: then the queue accepts two. -/
def capRun : List (Act Nat) :=
  inTurn 2 (init Nat) [(1, .add), (1, .enq 1 false), (1, .enq 2 false), (0, .deq), (0, .deq), (1, .enq 3 false), (1, .enq 4 false), (1, .enq 5 false)]

theorem capRun_log : (run 2 (init Nat) capRun).map (·.log) = some
    [.call 1 .add, .ret 1 .none, .call 1 (.enq 1 false), .enq 1 1, .ret 1 .yes, .call 1 (.enq 2 false), .enq 1 2, .ret 1 .yes,
     .call 0 .deq, .take 0, .ret 0 (.val (some 1)), .call 0 .deq, .take 0, .ret 0 (.val (some 2)),
     .call 1 (.enq 3 false), .enq 1 3, .ret 1 .yes, .call 1 (.enq 4 false), .enq 1 4, .ret 1 .yes, .call 1 (.enq 5 false), .refuse 1, .ret 1 .no] := by
  decide +kernel

theorem capRun_turn : InTurn 2 capRun := turn_of_check 2 (by decide +kernel) (by decide +kernel)

/-- What is seen of it up to where it is empty, and after. -/
def capEmpty : List (Ev Nat) :=
  [.call 1 .add, .ret 1 .none, .call 1 (.enq 1 false), .ret 1 .yes, .call 1 (.enq 2 false), .ret 1 .yes, .call 0 .deq, .ret 0 (.val (some 1)), .call 0 .deq, .ret 0 (.val (some 2))]
def capThen : List (Ev Nat) := [.call 1 (.enq 3 false), .ret 1 .yes, .call 1 (.enq 4 false), .ret 1 .yes]

theorem capEmpty_configured {c : Nat} (h : rounds 2 c = 1) : Configured 2 c capEmpty :=
  ⟨[.call 1 .add, .ret 1 .none], _, rfl, quiet_of_check 2 (by decide), by simp, by rw [h]; rfl, by decide⟩

/-- An empty queue with capacity 3 accepts two elements: a used-up block returns to the free list only when the next one is dequeued from. -/
theorem C35_violated_count : ¬ C35_accepts_capacity := by
  intro h
  obtain ⟨s, hs, hl⟩ := Option.map_eq_some_iff.mp capRun_log
  have := h Nat 2 3 2 (.single 0) capRun s capEmpty capThen 1 5 .no (by omega) (by decide +kernel) (by decide +kernel) capRun_turn hs
    (capEmpty_configured rfl) (by rw [hl]; decide) (by rw [hl]; decide) (by decide) (by decide) (by decide)
  cases this

/-- The full statement fails. -/
theorem C35_violated : ¬ C35_statement := fun h => C35_violated_empty h.1

/-- One consumer, any bounded producers, any schedule: at every moment the queue holds at most what 1 + max(c/B, 1) blocks can. -/
theorem C35_bound : C35_bounded_size := by
  intro α _ B c k acts s hB ha hg h hc
  have hT : ∀ p ∈ trace B (init α) acts, timelyAt p.1 p.2 := timely_bounded (fun _ => rfl) (fun a hx i e hae => by
    have := hg a hx; subst hae; cases this)
  obtain ⟨k, _⟩ := inv_run hB (inv_init B _) idle_init h ha hT (fun e => by cases e)
  obtain ⟨⟨L, _, _, h3⟩, _⟩ := counted_run counted_init (fun _ => rfl) hg h
  obtain ⟨q, hq, _⟩ := k.leg
  refine ⟨q, hq, Nat.le_trans (length_bound k hq) (Nat.mul_le_mul_right B ?_)⟩
  have := configured_blocks hc
  simp only [blocks] at this
  omega

/-- The same seen from outside when nothing is running: accepted at most that many more than dequeued. -/
theorem C35_bound_quiet {α : Type} [DecidableEq α] {B c k n : Nat} {acts : List (Act α)} {s : Queue.St α} (hB : 0 < B)
    (ha : ∀ a ∈ acts, a.allowed (.single k)) (hg : ∀ a ∈ acts, a.grows = false) (h : run B (init α) acts = some s) (hc : Configured B c s.log)
    (hq : Quiet s.log) (hn : ∀ e ∈ s.log, threadOf e < n) : acceptedCount n s.log ≤ (dequeued s.log).length + (1 + max (c / B) 1) * B := by
  obtain ⟨q, h1, h2⟩ := C35_bound α B c k acts s hB ha hg h hc
  rw [count_quiet h1 hq (rewound_nil h1 fun i e hx => ?_) hn]
  · omega
  · rcases run_calls h i _ hx with h1 | h1
    · cases h1
    · have := hg _ h1; cases this

/-- With any consumers (MPMCQueue): if none gets its reference to the block it read as the queue's head when the head has moved on. -/
theorem C35_bound_multi_partial {α : Type} [DecidableEq α] {B c : Nat} {acts : List (Act α)} {s : Queue.St α} (hB : 0 < B)
    (ha : ∀ a ∈ acts, a.allowed .multi) (hg : ∀ a ∈ acts, a.grows = false) (hf : Fresh B acts) (h : run B (init α) acts = some s) (hc : Configured B c s.log) :
    ∃ q, replay empty s.log = some q ∧ q.q.length ≤ (1 + max (c / B) 1) * B := by
  have hT : ∀ p ∈ trace B (init α) acts, timelyAt p.1 p.2 := timely_bounded (fun _ => rfl) (fun a hx i e hae => by
    have := hg a hx; subst hae; cases this)
  obtain ⟨k, _⟩ := inv_run hB (inv_init B _) idle_init h ha hT (fun _ => hf)
  obtain ⟨⟨L, _, _, h3⟩, _⟩ := counted_run counted_init (fun _ => rfl) hg h
  obtain ⟨q, hq, _⟩ := k.leg
  refine ⟨q, hq, Nat.le_trans (length_bound k hq) (Nat.mul_le_mul_right B ?_)⟩
  have := configured_blocks hc
  simp only [blocks] at this
  omega

/-- A refused enqueue changes nothing: whenever no operation is running, what the accepted enqueues gave, and nothing else, is what has been dequeued and what is in the queue. -/
theorem C35_refused_changes_nothing {α : Type} [DecidableEq α] {B k n : Nat} {acts : List (Act α)} {s : Queue.St α} (hB : 0 < B)
    (ha : ∀ a ∈ acts, a.allowed (.single k)) (hg : ∀ a ∈ acts, a.grows = false) (h : run B (init α) acts = some s)
    (hq : Quiet s.log) (hn : ∀ e ∈ s.log, threadOf e < n) :
    ∃ q, replay empty s.log = some q ∧ ((List.range n).flatMap (fun j => accepted j s.log)).Perm (dequeued s.log ++ q.q) := by
  have hT : ∀ p ∈ trace B (init α) acts, timelyAt p.1 p.2 := timely_bounded (fun _ => rfl) (fun a hx i e hae => by
    have := hg a hx; subst hae; cases this)
  obtain ⟨q, h1⟩ := legal_of_inv (inv_run hB (inv_init B _) idle_init h ha hT (fun e => by cases e)).1
  refine ⟨q, h1, perm_quiet h1 hq (rewound_nil h1 fun i e hx => ?_) hn⟩
  rcases run_calls h i _ hx with h1 | h1
  · cases h1
  · have := hg _ h1; cases this

/-- What an enqueue that runs in its turn returns, and the state in which it is refused. -/
theorem turn_enq {α : Type} [DecidableEq α] {B n : Nat} {m : Mode} {acts : List (Act α)} {s : Queue.St α} {o : List (Ev α)} {i : Nat} {e : α} {r : Ret α} (hB : 0 < B)
    (ha : ∀ a ∈ acts, a.allowed m) (hg : ∀ a ∈ acts, a.grows = false) (ht : InTurn B acts) (h : run B (init α) acts = some s) (hn : ∀ e ∈ s.log, threadOf e < n)
    (ho : o ++ [.call i (.enq e false), .ret i r] <+: observed s.log) :
    r = .yes ∨ (r = .no ∧ ∃ as bs s1, acts = as ++ bs ∧ run B (init α) as = some s1 ∧
      (dequeued o).length + (1 + blocks o) * B ≤ acceptedCount n o + (s1.blk s1.qhead).head ∧ (s1.blk s1.qhead).head ≤ B) := by
  obtain ⟨a, mid, w, hl, h1, h2⟩ := split_observed ho
  obtain ⟨k, _⟩ := turn_run hB (inv_init B m) idle_init turn_init h ha ht
  have hq : Quiet a := call_quiet hB h ha ht (l := a) (j := i) (c := .enq e false) ⟨mid ++ .ret i r :: w, by rw [hl]; simp⟩
  obtain ⟨q, hleg⟩ := legal_of_inv k
  have e1 : s.log = a ++ ((.call i (.enq e false) :: mid ++ [.ret i r]) ++ w) := by rw [hl]; simp
  rw [e1, replay_append, Option.bind_eq_some_iff] at hleg
  obtain ⟨qa, h3, h4⟩ := hleg
  rw [replay_append, Option.bind_eq_some_iff] at h4
  obtain ⟨qb, h5, _⟩ := h4
  rcases enq_alone (quiet_doing h3 hq) h2 h5 with ⟨_, h6⟩ | ⟨rfl, h6⟩
  · exact .inl h6
  · right
    refine ⟨h6, ?_⟩
    obtain ⟨as, bs, s1, q1, g1, g2, g3, g4, g5, g6⟩ := refuse_run hB h ha hg ht (l := a ++ [.call i (.enq e false)]) (j := i) ⟨.ret i r :: w, by rw [hl]; simp⟩
    refine ⟨as, bs, s1, g1, g2, ?_, g6⟩
    have hr : rewound a = [] := rewound_nil h3 fun j x hx => by
      rcases run_calls h j (.rewind x) (by rw [hl]; simp [hx]) with h1 | h1
      · cases h1
      · have := hg _ h1; cases this
    have hc := count_quiet h3 hq hr (n := n) (fun x hx => hn x (by rw [hl]; simp [hx]))
    rw [replay_append, h3] at g4
    simp only [Option.bind_some, replay, Option.bind_eq_some_iff] at g4
    obtain ⟨q2, g4, g7⟩ := g4
    cases g7
    have hqq : q1.q = qa.q := by
      rcases after_cases g4 with ⟨j, x, e, _, rfl⟩ | ⟨j, x, u, e, _⟩ | ⟨j, x, e, _⟩ | ⟨j, x, l', e, _⟩ | ⟨j, e, _⟩ | ⟨j, x, e, _⟩ | ⟨j, r, e, _⟩ <;> first | rfl | cases e
    have hb : (a ++ [Ev.call i (.enq e false)]).countP isAdd = blocks o := by
      rw [← h1, blocks_observed]; simp [blocks, isAdd]
    rw [hb, hqq] at g5
    rw [← h1, acceptedCount_observed, dequeued_observed, hc, h1]
    omega

/-- Operations one after the other (in any threads, of either queue): an enqueue is refused only if the queue holds what its blocks beyond the first can hold. -/
theorem C35_refused_partial {α : Type} [DecidableEq α] {B n : Nat} {m : Mode} {acts : List (Act α)} {s : Queue.St α} {o : List (Ev α)} {i : Nat} {e : α} {r : Ret α} (hB : 0 < B)
    (ha : ∀ a ∈ acts, a.allowed m) (hg : ∀ a ∈ acts, a.grows = false) (ht : InTurn B acts) (h : run B (init α) acts = some s) (hn : ∀ e ∈ s.log, threadOf e < n)
    (ho : o ++ [.call i (.enq e false), .ret i r] <+: observed s.log) : r = .yes ∨ (r = .no ∧ (dequeued o).length + blocks o * B ≤ acceptedCount n o) := by
  rcases turn_enq hB ha hg ht h hn ho with h1 | ⟨h1, _, _, s1, _, _, h2, h3⟩
  · exact .inl h1
  · rw [Nat.add_mul] at h2
    exact .inr ⟨h1, by omega⟩

/-- So after set_capacity it is not refused when the queue is empty, … -/
theorem C35_never_when_empty_partial {α : Type} [DecidableEq α] {B c n : Nat} {m : Mode} {acts : List (Act α)} {s : Queue.St α} {o : List (Ev α)} {i : Nat} {e : α} {r : Ret α} (hB : 0 < B)
    (ha : ∀ a ∈ acts, a.allowed m) (hg : ∀ a ∈ acts, a.grows = false) (ht : InTurn B acts) (h : run B (init α) acts = some s) (hc : Configured B c o) (hn : ∀ e ∈ s.log, threadOf e < n)
    (ho : o ++ [.call i (.enq e false), .ret i r] <+: observed s.log) (he : acceptedCount n o = (dequeued o).length) : r = .yes := by
  rcases C35_refused_partial hB ha hg ht h hn ho with h1 | ⟨_, h2⟩
  · exact h1
  · rw [configured_blocks hc] at h2
    have : 1 * B ≤ max (c / B) 1 * B := Nat.mul_le_mul_right B (by omega)
    omega

/-- … nor when it holds fewer than c elements, if c is a multiple of the size of a block; … -/
theorem C35_accepts_capacity_partial {α : Type} [DecidableEq α] {B c n : Nat} {m : Mode} {acts : List (Act α)} {s : Queue.St α} {o : List (Ev α)} {i : Nat} {e : α} {r : Ret α} (hB : 0 < B)
    (ha : ∀ a ∈ acts, a.allowed m) (hg : ∀ a ∈ acts, a.grows = false) (ht : InTurn B acts) (h : run B (init α) acts = some s) (hc : Configured B c o) (hn : ∀ e ∈ s.log, threadOf e < n)
    (ho : o ++ [.call i (.enq e false), .ret i r] <+: observed s.log) (hd : B ∣ c) (he : acceptedCount n o < (dequeued o).length + c) : r = .yes := by
  rcases C35_refused_partial hB ha hg ht h hn ho with h1 | ⟨_, h2⟩
  · exact h1
  · rw [configured_blocks hc] at h2
    have h3 : c / B * B ≤ max (c / B) 1 * B := Nat.mul_le_mul_right B (by omega)
    rw [Nat.div_mul_cancel hd] at h3
    omega

/-- … and before the first dequeue it is not refused, whatever c, when fewer than 1 + max(c/B, 1) blocks of elements (which is more than c) have been accepted. -/
theorem C35_new_partial {α : Type} [DecidableEq α] {B c n : Nat} {m : Mode} {acts : List (Act α)} {s : Queue.St α} {o : List (Ev α)} {i : Nat} {e : α} {r : Ret α} (hB : 0 < B)
    (ha : ∀ a ∈ acts, a.allowed m) (hg : ∀ a ∈ acts, a.grows = false) (hd : ∀ i, .start i .deq ∉ acts ∧ .start i .deqM ∉ acts) (ht : InTurn B acts) (h : run B (init α) acts = some s)
    (hc : Configured B c o) (hn : ∀ e ∈ s.log, threadOf e < n) (ho : o ++ [.call i (.enq e false), .ret i r] <+: observed s.log)
    (he : acceptedCount n o < (1 + max (c / B) 1) * B) : r = .yes ∧ c < (1 + max (c / B) 1) * B := by
  constructor
  · rcases turn_enq hB ha hg ht h hn ho with h1 | ⟨_, as, bs, s1, h1, h2, h3, _⟩
    · exact h1
    · have := (untaken_run untaken_init (fun a hx i => ⟨fun e => (hd i).1 (by rw [h1, ← e]; simp [hx]), fun e => (hd i).2 (by rw [h1, ← e]; simp [hx]),
        fun x e => by have := hg a (by rw [h1]; simp [hx]); rw [e] at this; cases this⟩) h2).head s1.qhead
      rw [this, configured_blocks hc] at h3
      omega
  · have h1 := Nat.lt_mul_div_succ c hB
    rw [Nat.mul_comm] at h1
    have h2 : (c / B + 1) * B ≤ (1 + max (c / B) 1) * B := Nat.mul_le_mul_right B (by omega)
    omega

/-- The run above with capacity 2: the bound, the refusal and the acceptances are all met. -/
example : ∃ s q, run 2 (init Nat) capRun = some s ∧ replay empty s.log = some q ∧ q.q.length = 2 ∧ q.q.length ≤ (1 + max (2 / 2) 1) * 2 := by
  obtain ⟨s, hs, hl⟩ := Option.map_eq_some_iff.mp capRun_log
  obtain ⟨q, hq, hb⟩ := C35_bound Nat 2 2 0 capRun s (by omega) (by decide +kernel) (by decide +kernel) hs
    ⟨[.call 1 .add, .ret 1 .none], _, by rw [hl]; rfl, quiet_of_check 2 (by decide), by simp, by decide, by decide⟩
  have e : (replay empty s.log).map (fun q => q.q.length) = some 2 := by rw [hl]; rfl
  rw [hq] at e
  exact ⟨s, q, hs, hq, by simpa using e, hb⟩

example : ∃ s q, run 2 (init Nat) capRun = some s ∧ replay empty s.log = some q ∧ [1, 2, 3, 4].Perm ([1, 2] ++ q.q) := by
  obtain ⟨s, hs, hl⟩ := Option.map_eq_some_iff.mp capRun_log
  obtain ⟨q, hq, hp⟩ := C35_refused_changes_nothing (k := 0) (n := 2) (by omega) (by decide +kernel) (by decide +kernel) hs (by rw [hl]; exact quiet_of_check 2 (by decide)) (by rw [hl]; decide)
  refine ⟨s, q, hs, hq, ?_⟩
  rw [hl] at hp
  exact hp

example : ∃ s, run 2 (init Nat) capRun = some s ∧ acceptedCount 2 s.log = 4 ∧ acceptedCount 2 s.log ≤ (dequeued s.log).length + (1 + max (2 / 2) 1) * 2 := by
  obtain ⟨s, hs, hl⟩ := Option.map_eq_some_iff.mp capRun_log
  refine ⟨s, hs, by rw [hl]; decide, C35_bound_quiet (k := 0) (by omega) (by decide +kernel) (by decide +kernel) hs
    ⟨[.call 1 .add, .ret 1 .none], _, by rw [hl]; rfl, quiet_of_check 2 (by decide), by simp, by decide, by decide⟩ (by rw [hl]; exact quiet_of_check 2 (by decide)) (by rw [hl]; decide)⟩

example : ∃ s, run 2 (init Nat) capRun = some s ∧ Ret.no = (Ret.no : Ret Nat) ∧ (dequeued (capEmpty ++ capThen)).length + blocks (capEmpty ++ capThen) * 2 ≤ acceptedCount 2 (capEmpty ++ capThen) := by
  obtain ⟨s, hs, hl⟩ := Option.map_eq_some_iff.mp capRun_log
  have := C35_refused_partial (n := 2) (m := .single 0) (o := capEmpty ++ capThen) (i := 1) (e := 5) (r := .no) (by omega) (by decide +kernel) (by decide +kernel) capRun_turn hs
    (by rw [hl]; decide) (by rw [hl]; decide)
  exact ⟨s, hs, this.resolve_left (by simp)⟩

example : ∃ s, run 2 (init Nat) capRun = some s ∧ Ret.yes = (Ret.yes : Ret Nat) := by
  obtain ⟨s, hs, hl⟩ := Option.map_eq_some_iff.mp capRun_log
  exact ⟨s, hs, C35_never_when_empty_partial (c := 3) (n := 2) (m := .single 0) (o := capEmpty) (i := 1) (e := 3) (r := .yes) (by omega) (by decide +kernel) (by decide +kernel) capRun_turn hs
    (capEmpty_configured rfl) (by rw [hl]; decide) (by rw [hl]; decide) (by decide)⟩

example : ∃ s, run 2 (init Nat) capRun = some s ∧ Ret.yes = (Ret.yes : Ret Nat) := by
  obtain ⟨s, hs, hl⟩ := Option.map_eq_some_iff.mp capRun_log
  exact ⟨s, hs, C35_accepts_capacity_partial (c := 2) (n := 2) (m := .single 0) (o := capEmpty) (i := 1) (e := 3) (r := .yes) (by omega) (by decide +kernel) (by decide +kernel) capRun_turn hs
    (capEmpty_configured rfl) (by rw [hl]; decide) (by rw [hl]; decide) (by decide) (by decide)⟩

/-- A new queue of capacity 3, with blocks of two elements, accepts four. -/
def newRun : List (Act Nat) := inTurn 2 (init Nat) [(1, .add), (1, .enq 1 false), (0, .enq 2 false), (1, .enq 3 false), (0, .enq 4 false), (1, .enq 5 false)]

example : ∃ s, run 2 (init Nat) newRun = some s ∧ Ret.yes = (Ret.yes : Ret Nat) := by
  have e : (run 2 (init Nat) newRun).map (·.log) = some
    [.call 1 .add, .ret 1 .none, .call 1 (.enq 1 false), .enq 1 1, .ret 1 .yes, .call 0 (.enq 2 false), .enq 0 2, .ret 0 .yes, .call 1 (.enq 3 false), .enq 1 3, .ret 1 .yes,
     .call 0 (.enq 4 false), .enq 0 4, .ret 0 .yes, .call 1 (.enq 5 false), .refuse 1, .ret 1 .no] := by decide +kernel
  obtain ⟨s, hs, hl⟩ := Option.map_eq_some_iff.mp e
  refine ⟨s, hs, (C35_new_partial (c := 3) (n := 2) (m := .multi) (i := 0) (e := 4) (r := .yes)
    (o := [.call 1 .add, .ret 1 .none, .call 1 (.enq 1 false), .ret 1 .yes, .call 0 (.enq 2 false), .ret 0 .yes, .call 1 (.enq 3 false), .ret 1 .yes]) (by omega) (by decide +kernel) (by decide +kernel) ?_
    (turn_of_check 2 (by decide +kernel) (by decide +kernel)) hs ⟨[.call 1 .add, .ret 1 .none], _, rfl, quiet_of_check 2 (by decide), by simp, by decide, by decide⟩ (by rw [hl]; decide) (by rw [hl]; decide) (by decide)).1⟩
  have : ∀ a ∈ newRun, (match a with | .start _ .deq => false | .start _ .deqM => false | _ => true) = true := by decide +kernel
  exact fun i => ⟨fun h => absurd (this _ h) (by simp), fun h => absurd (this _ h) (by simp)⟩

/-- Two producers and a consumer of MPMCQueue. -/
def capRunM : List (Act Nat) :=
  inTurn 1 (init Nat) [(1, .add), (1, .enq 1 false), (2, .enq 2 false), (0, .deqM), (2, .enq 3 false)] ++ [.start 0 .deqM]

example : ∃ s q, run 1 (init Nat) capRunM = some s ∧ replay empty s.log = some q ∧ q.q.length ≤ (1 + max (1 / 1) 1) * 1 := by
  have e : (run 1 (init Nat) capRunM).map (·.log) = some
    [.call 1 .add, .ret 1 .none, .call 1 (.enq 1 false), .enq 1 1, .ret 1 .yes, .call 2 (.enq 2 false), .enq 2 2, .ret 2 .yes, .call 0 .deqM, .take 0, .ret 0 (.val (some 1)),
     .call 2 (.enq 3 false), .refuse 2, .ret 2 .no, .call 0 .deqM] := by decide +kernel
  obtain ⟨s, hs, hl⟩ := Option.map_eq_some_iff.mp e
  obtain ⟨q, hq, hb⟩ := C35_bound_multi_partial (c := 1) (by omega) (by decide +kernel) (by decide +kernel) (fresh_of_check (by decide +kernel)) hs
    ⟨[.call 1 .add, .ret 1 .none], _, by rw [hl]; rfl, quiet_of_check 2 (by decide), by simp, by decide, by decide⟩
  exact ⟨s, q, hs, hq, hb⟩

/-! # Operations one after the other

No condition on the free list or the consumers is needed then. -/

/-- Operations one after the other, each in any thread: those of a FIFO queue. -/
theorem C34_in_turn_partial {α : Type} [DecidableEq α] {B : Nat} {m : Mode} {acts : List (Act α)} {s : Queue.St α} (hB : 0 < B)
    (ha : ∀ a ∈ acts, a.allowed m) (ht : InTurn B acts) (h : run B (init α) acts = some s) : Linearizable s.log :=
  ⟨s.log, rfl, legal_of_inv (turn_run hB (inv_init B m) idle_init turn_init h ha ht).1⟩

/-- Operations one after the other, each in any thread: an element put back is the next one dequeued.  Missing: operations that overlap. -/
theorem C36_in_turn_partial {α : Type} [DecidableEq α] {B c : Nat} {acts : List (Act α)} {s : Queue.St α} {e : α} {x r : Ret α} {p p' : List (Ev α)} (hB : 0 < B)
    (ha : ∀ a ∈ acts, a.allowed (.single c)) (ht : InTurn B acts) (h : run B (init α) acts = some s)
    (ho : ofThread c s.log = p ++ [.call c (.rewind e), .ret c x, .call c .deq, .ret c r] ++ p') : x = .yes ∧ r = .val (some e) := by
  obtain ⟨q, hq⟩ := legal_of_inv (turn_run hB (inv_init B _) idle_init turn_init h ha ht).1
  exact rewind_deq_at hq (only_of_allowed h ha) (.inl rfl) ho

/-- Operations one after the other, each in any thread: when the queue is said to be empty, all elements have been dequeued, once.  Missing: operations that overlap. -/
theorem C37_in_turn_partial {α : Type} [DecidableEq α] {B : Nat} {acts : List (Act α)} {s : Queue.St α} {l mid : List (Ev α)} {i n : Nat} (hB : 0 < B)
    (ha : ∀ a ∈ acts, a.allowed .multi) (ht : InTurn B acts) (h : run B (init α) acts = some s)
    (hl : s.log = l ++ .call i .deqM :: mid ++ [.ret i .no]) (hn : ∀ e ∈ l, threadOf e < n) (hm : ∀ e ∈ mid, threadOf e = i) (hm' : ofThread i mid = []) :
    ((List.range n).flatMap (fun j => accepted j l)).Perm (dequeued l) := by
  obtain ⟨q, hq'⟩ := legal_of_inv (turn_run hB (inv_init B _) idle_init turn_init h ha ht).1
  have hq : Quiet l := call_quiet hB h ha ht (l := l) (j := i) (c := .deqM) ⟨mid ++ [.ret i .no], by rw [hl]; simp⟩
  rw [hl] at hq'
  have hrw : rewound l = [] := by
    have hq2 := hq'
    rw [List.append_assoc, replay_append, Option.bind_eq_some_iff] at hq2
    obtain ⟨q1, hq1, _⟩ := hq2
    refine rewound_nil hq1 (fun j e hx => ?_)
    rcases run_calls h j (.rewind e) (by rw [hl]; simp [hx]) with h1 | h1
    · cases h1
    · have := ha _ h1; simp [Act.allowed] at this
  have := (drained (.inr rfl) hq' hq hn hm hm').1
  rwa [hrw, List.append_nil] at this

/-- Both queues, unbounded enqueues, blocks of one element. -/
def turnRun : List (Act Nat) :=
  inTurn 1 (init Nat) [(1, .enq 1 true), (2, .enq 2 true), (0, .deqM), (1, .enq 3 true), (3, .deqM), (0, .deqM), (3, .deqM)]

example : ∃ s, run 1 (init Nat) turnRun = some s ∧ Linearizable s.log ∧ dequeued s.log = [1, 2, 3] := by
  have e : (run 1 (init Nat) turnRun).map (fun s => dequeued s.log) = some [1, 2, 3] := by decide +kernel
  obtain ⟨s, hs, hl⟩ := Option.map_eq_some_iff.mp e
  exact ⟨s, hs, C34_in_turn_partial (m := .multi) (by omega) (by decide +kernel) (turn_of_check 4 (by decide +kernel) (by decide +kernel)) hs, hl⟩

example : ∃ s l, run 1 (init Nat) turnRun = some s ∧ ((List.range 4).flatMap (fun j => accepted j l)).Perm (dequeued l) ∧ dequeued l = [1, 2, 3] := by
  have e : (run 1 (init Nat) turnRun).map (·.log) = some ([.call 1 (.enq 1 true), .enq 1 1, .ret 1 .yes, .call 2 (.enq 2 true), .enq 2 2, .ret 2 .yes, .call 0 .deqM, .take 0, .ret 0 (.val (some 1)),
      .call 1 (.enq 3 true), .enq 1 3, .ret 1 .yes, .call 3 .deqM, .take 3, .ret 3 (.val (some 2)), .call 0 .deqM, .take 0, .ret 0 (.val (some 3))] ++ .call 3 .deqM :: [.empty 3] ++ [.ret 3 .no]) := by
    decide +kernel
  obtain ⟨s, hs, hl⟩ := Option.map_eq_some_iff.mp e
  exact ⟨s, _, hs, C37_in_turn_partial (by omega) (by decide +kernel) (turn_of_check 4 (by decide +kernel) (by decide +kernel)) hs hl (by decide) (by decide) (by decide), by decide⟩

example : ∃ s, run 1 (init Nat) rewindRun = some s ∧ Ret.val (some 1) = Ret.val (some 1) := by
  have e : (run 1 (init Nat) rewindRun).map (fun s => ofThread 0 s.log) = some ([.call 0 .deq, .ret 0 (.val (some 1)), .call 0 .deq, .ret 0 (.val (some 2)), .call 0 (.rewind 2), .ret 0 .yes] ++
      [.call 0 (.rewind 1), .ret 0 .yes, .call 0 .deq, .ret 0 (.val (some 1))] ++ [.call 0 .deq, .ret 0 (.val (some 2)), .call 0 .deq, .ret 0 .no]) := by decide +kernel
  obtain ⟨s, h, hl⟩ := Option.map_eq_some_iff.mp e
  exact ⟨s, h, (C36_in_turn_partial (c := 0) (by omega) (by decide +kernel) (turn_of_check 2 (by decide +kernel) (by decide +kernel)) h hl).2⟩

end Salticidae
