import Verif.Lemmas.QueueAny
import Verif.Props.QueueCap
/-!
The violations of C34, C35, C36 and C37, for every block size.
-/
namespace Salticidae
open Queue Spec.Queue

namespace Queue
open FreeList (upd Node)

/-- The state at the beginning, without ghosts. -/
theorem real_init {α : Type} : real (init α) = ⟨fn ⟨none, 1, false⟩ ⟨none, 1, false⟩ ⟨none, 1, false⟩ ⟨none, 1, false⟩ ⟨none, 1, false⟩ (fun _ => ⟨none, 1, false⟩), 1, none,
    fn (.ret .none) (.ret .none) (.ret .none) (.ret .none) (.ret .none) (fun _ => .ret .none),
    fn ⟨0, 0, fun _ => none, fun _ => false, none⟩ ⟨0, 0, fun _ => none, fun _ => false, none⟩ ⟨0, 0, fun _ => none, fun _ => false, none⟩ ⟨0, 0, fun _ => none, fun _ => false, none⟩
      ⟨0, 0, fun _ => none, fun _ => false, none⟩ (fun _ => ⟨0, 0, fun _ => none, fun _ => false, none⟩), 0, 0,
    fn (.idle .none) (.idle .none) (.idle .none) (.idle .none) (.idle .none) (fun _ => .idle .none), []⟩ := by
  simp only [real, init, FreeList.init, R.mk.injEq]
  and_intros <;> first | rfl | trivial | (apply fn_ext <;> intros <;> rfl)

/-- `lateClear`, where blocks have m + 1 elements. -/
def lateClearAny (m : Nat) : List (Act Nat) :=
  [fill 1 0 true (m + 1), .start 2 (.enq 0 true) :: goes 2 13, .start 3 (.enq 9 true) :: goes 3 1, fill 1 0 true (m + 1), drain 0 (m + 1), .start 0 .deq :: goes 0 8,
   goes 0 7, drain 0 m, .start 1 (.enq 0 true) :: goes 1 17, goes 1 11, fill 1 0 true m, .start 0 .deq :: goes 0 12, goes 0 7, drain 0 m, goes 2 1, .start 4 (.enq 0 true) :: goes 4 15,
   goes 3 10, .start 0 .deq :: goes 0 4].flatten

/-- What happens in it, up to the last dequeue. -/
def lateClearSeen (m : Nat) : List (Ev Nat) :=
  fillLog 1 0 true (m + 1) ++ [.call 2 (.enq 0 true), .call 3 (.enq 9 true)] ++ fillLog 1 0 true (m + 1) ++ drainLog 0 0 (m + 1) ++
    [.call 0 .deq, .take 0, .ret 0 (.val (some 0))] ++ drainLog 0 0 m ++ [.call 1 (.enq 0 true), .enq 1 0, .ret 1 .yes] ++ fillLog 1 0 true m ++
    [.call 0 .deq, .take 0, .ret 0 (.val (some 0))] ++ drainLog 0 0 m ++ [.call 4 (.enq 0 true), .enq 3 9, .ret 3 .yes]

theorem lateClearAny_log (m : Nat) : Ends (rrun (m + 1) (real (init Nat)) (lateClearAny m)) (fun r => r.log = lateClearSeen m ++ [.call 0 .deq, .empty 0, .ret 0 .no]) := by
  rw [real_init]
  simp only [lateClearAny, List.flatten_cons, List.flatten_nil, List.append_nil]
  refine fill_then rfl rfl rfl rfl (by simp) ?_
  intro E0 A0 y s0 _
  clean at s0 ⊢
  exec [goes]
  refine fill_then rfl rfl rfl rfl (by simp) ?_
  intro E1 A1 y s1 _
  clean at s1 ⊢
  refine drain_then (e := 0) rfl rfl rfl (by simp) (fun k _ h => s0 k (by simpa using h)) ?_
  intro A0' y _
  clean
  exec [goes, (s1 0 (by omega)).1, (s1 0 (by omega)).2]
  refine drain_then (e := 0) rfl rfl rfl (by simp; omega) (fun k h h' => ?_) ?_
  · clean at h h' ⊢
    rw [upd_ne (by omega)]
    exact s1 k (by omega)
  intro A1' y _
  clean
  have e : 1 + m = m + 1 := Nat.add_comm 1 m
  exec [goes, e]
  refine fill_then rfl rfl rfl rfl (by simp; omega) ?_
  intro E2 A2 y s2 t2
  clean at s2 t2 ⊢
  obtain ⟨u1, u2⟩ := t2 0 (by omega)
  simp only [upd_same] at u1 u2
  exec [goes, u1, u2, e]
  refine drain_then (e := 0) rfl rfl rfl (by simp; omega) (fun k h h' => ?_) ?_
  · clean at h h' ⊢
    rw [upd_ne (by omega)]
    exact s2 k (by omega) (by omega)
  intro A2' y _
  clean
  exec [goes, e]
  exact ends_some (by simp [lateClearSeen])

/-- What is done by a run without ghosts is done by the run. -/
theorem run_of_ends {α : Type} {B : Nat} {as : List (Act α)} {l : List (Ev α)} (h : Ends (rrun B (real (init α)) as) (fun r => r.log = l)) :
    ∃ s, run B (init α) as = some s ∧ s.log = l := by
  obtain ⟨r, h1, h2⟩ := h
  rw [← real_run, Option.map_eq_some_iff] at h1
  obtain ⟨s, h3, rfl⟩ := h1
  exact ⟨s, h3, h2⟩

/-- Which thread starts which operations. -/
theorem mem_goes {α : Type} {i n : Nat} {a : Act α} : a ∈ goes i n → a = .go i true := by
  induction n with
  | zero => intro h; cases h
  | succ n ih => exact fun h => (List.mem_cons.mp h).elim id ih
theorem mem_fill {α : Type} {i n : Nat} {e : α} {u : Bool} {a : Act α} : a ∈ fill i e u n → a = .go i true ∨ a = .start i (.enq e u) := by
  induction n with
  | zero => intro h; cases h
  | succ n ih =>
    intro h
    rcases List.mem_append.mp h with h | h
    · rcases List.mem_cons.mp h with h | h
      · exact .inr h
      · exact .inl (mem_goes h)
    · exact ih h
theorem mem_drain {α : Type} {i n : Nat} {a : Act α} : a ∈ drain i n → a = .go i true ∨ a = .start i .deq := by
  induction n with
  | zero => intro h; cases h
  | succ n ih =>
    intro h
    rcases List.mem_append.mp h with h | h
    · rcases List.mem_cons.mp h with h | h
      · exact .inr h
      · exact .inl (mem_goes h)
    · exact ih h
theorem mem_drainM {α : Type} {i n : Nat} {a : Act α} : a ∈ drainM i n → a = .go i true ∨ a = .start i .deqM := by
  induction n with
  | zero => intro h; cases h
  | succ n ih =>
    intro h
    rcases List.mem_append.mp h with h | h
    · rcases List.mem_cons.mp h with h | h
      · exact .inr h
      · exact .inl (mem_goes h)
    · exact ih h
theorem mem_backs {α : Type} {i n : Nat} {e : α} {a : Act α} : a ∈ backs i e n → a = .go i true ∨ a = .start i (.rewind e) := by
  induction n with
  | zero => intro h; cases h
  | succ n ih =>
    intro h
    rcases List.mem_append.mp h with h | h
    · rcases List.mem_cons.mp h with h | h
      · exact .inr h
      · exact .inl (mem_goes h)
    · exact ih h

theorem allowed_goes {α : Type} {i n : Nat} (m : Mode) : ∀ a ∈ goes i n, a.allowed (α := α) m := fun a h => by rw [mem_goes h]; trivial
theorem allowed_fill {α : Type} {i n : Nat} {e : α} {u : Bool} (m : Mode) : ∀ a ∈ fill i e u n, a.allowed m := fun a h => by rcases mem_fill h with rfl | rfl <;> trivial
theorem allowed_drain {α : Type} {i n : Nat} : ∀ a ∈ drain i n, a.allowed (α := α) (.single i) := fun a h => by
  rcases mem_drain h with rfl | rfl
  · trivial
  · rfl
theorem allowed_backs {α : Type} {i n : Nat} {e : α} : ∀ a ∈ backs i e n, a.allowed (α := α) (.single i) := fun a h => by
  rcases mem_backs h with rfl | rfl
  · trivial
  · rfl
theorem allowed_drainM {α : Type} {i n : Nat} : ∀ a ∈ drainM i n, a.allowed (α := α) .multi := fun a h => by
  rcases mem_drainM h with rfl | rfl
  · trivial
  · rfl

macro "allow" : tactic =>
  `(tactic| (simp only [List.flatten_cons, List.flatten_nil, List.append_nil, List.forall_mem_append, List.forall_mem_cons]; and_intros <;>
    with_reducible first | exact allowed_goes _ | exact allowed_fill _ | exact allowed_drain | exact allowed_backs | exact allowed_drainM | trivial | decide))

theorem norew_goes {α : Type} {i n : Nat} : ∀ a ∈ goes (α := α) i n, ∀ j e, a ≠ .start j (.rewind e) := fun a h j e => by rw [mem_goes h]; simp
theorem norew_fill {α : Type} {i n : Nat} {e : α} {u : Bool} : ∀ a ∈ fill i e u n, ∀ j e, a ≠ .start j (.rewind e) := fun a h j e => by rcases mem_fill h with rfl | rfl <;> simp
theorem norew_drain {α : Type} {i n : Nat} : ∀ a ∈ drain (α := α) i n, ∀ j e, a ≠ .start j (.rewind e) := fun a h j e => by rcases mem_drain h with rfl | rfl <;> simp

theorem lateClearAny_norewind (m : Nat) : ∀ a ∈ lateClearAny m, ∀ j e, a ≠ .start j (.rewind e) := by
  simp only [lateClearAny, List.flatten_cons, List.flatten_nil, List.append_nil, List.forall_mem_append, List.forall_mem_cons]
  and_intros <;> first | with_reducible exact norew_goes | with_reducible exact norew_fill | with_reducible exact norew_drain | (intro j e h; cases h; done)

theorem lateClearAny_allowed (m : Nat) : ∀ a ∈ lateClearAny m, a.allowed (.single 0) := by
  unfold lateClearAny
  allow

/-! What can be read off these histories. -/
section
variable {α : Type} [DecidableEq α] {i j n : Nat} {e : α} {u : Bool}
omit [DecidableEq α] in
theorem dequeued_append (l m : List (Ev α)) : dequeued (l ++ m) = dequeued l ++ dequeued m := List.filterMap_append
theorem ofThread_fill (h : i ≠ j) : ofThread j (fillLog i e u n) = [] := by
  induction n with
  | zero => rfl
  | succ n ih => rw [fillLog, ofThread_append, ih]; simp [ofThread, h]
theorem ofThread_drain (h : i ≠ j) : ofThread j (drainLog i e n) = [] := by
  induction n with
  | zero => rfl
  | succ n ih => rw [drainLog, ofThread_append, ih]; simp [ofThread, h]
theorem ofThread_drainM (h : i ≠ j) : ofThread j (drainMLog i e n) = [] := by
  induction n with
  | zero => rfl
  | succ n ih => rw [drainMLog, ofThread_append, ih]; simp [ofThread, h]
omit [DecidableEq α] in
theorem dequeued_fill : dequeued (fillLog i e u n) = [] := by
  induction n with
  | zero => rfl
  | succ n ih => rw [fillLog, dequeued_append, ih]; rfl
omit [DecidableEq α] in
theorem dequeued_drain : dequeued (drainLog i e n) = List.replicate n e := by
  induction n with
  | zero => rfl
  | succ n ih => rw [drainLog, dequeued_append, ih]; rfl
omit [DecidableEq α] in
theorem dequeued_drainM : dequeued (drainMLog i e n) = List.replicate n e := by
  induction n with
  | zero => rfl
  | succ n ih => rw [drainMLog, dequeued_append, ih]; rfl
end

end Queue

/-- What C34 says of queues with blocks of B elements. -/
def C34_statement_at (B : Nat) : Prop :=
  ∀ (c : Nat) (acts : List (Act Nat)) (s : Queue.St Nat), (∀ a ∈ acts, a.allowed (.single c)) → run B (init Nat) acts = some s → Linearizable s.log

/-- It is false whatever the size of the blocks (in the code it is 4096): the calls and returns of `lateClearAny` are not those of a queue. -/
theorem C34_violated_any (B : Nat) (hB : 0 < B) : ¬ C34_statement_at B := by
  intro h
  obtain ⟨m, rfl⟩ : ∃ m, B = m + 1 := ⟨B - 1, by omega⟩
  obtain ⟨s, hs, hl⟩ := run_of_ends (lateClearAny_log m)
  have hlin := h 0 _ s (lateClearAny_allowed m) hs
  have hon := only_of_allowed hs (lateClearAny_allowed m)
  have := found_nothing (c := 0) (d := .deq) (o := observed (lateClearSeen m)) hlin hon (fun i e hx => ?_) (.inl rfl) (by rw [hl, observed_append]; rfl) 3 9
  · have h9 : 9 ∈ accepted 3 (observed (lateClearSeen m)) := by
      rw [accepted, ofThread_observed]
      simp only [lateClearSeen, ofThread_append]
      simp only [ofThread_fill (i := 1) (j := 3) (by decide), ofThread_drain (i := 0) (j := 3) (by decide)]
      decide
    have := this h9
    revert this
    rw [dequeued_observed]
    simp only [lateClearSeen, dequeued_append, dequeued_fill, dequeued_drain]
    simp [dequeued]
  · rcases run_calls hs i _ hx with h1 | h1
    · cases h1
    · exact lateClearAny_norewind m _ h1 i e rfl

namespace Queue

/-- `lateWrite`, where blocks have m + 1 elements: the block popped by `rewind` is filled with elements put back, from its end; producer 3, which took its first place, writes to it when the consumer has put back
an element there. -/
def lateWriteAny (m : Nat) : List (Act Nat) :=
  [fill 1 0 true (m + 1), .start 2 (.enq 0 true) :: goes 2 13, .start 3 (.enq 9 true) :: goes 3 1, fill 1 0 true (m + 1), drain 0 (m + 1), .start 0 .deq :: goes 0 8,
   goes 0 7, drain 0 m, .start 1 (.enq 0 true) :: goes 1 17, goes 1 11, fill 1 0 true m, .start 0 .deq :: goes 0 12, goes 0 7, .start 4 (.enq 0 true) :: goes 4 16,
   .go 4 false :: goes 4 9, goes 2 1, .start 0 (.rewind 7) :: goes 0 7, .start 0 (.rewind 8) :: goes 0 9, goes 3 5, goes 0 9, backs 0 8 m, goes 3 1, .start 0 .deq :: goes 0 7].flatten

theorem lateWriteAny_allowed (m : Nat) : ∀ a ∈ lateWriteAny m, a.allowed (.single 0) := by
  unfold lateWriteAny
  allow

/-- What happens in it. -/
def lateWriteSeen (m : Nat) : List (Ev Nat) :=
  fillLog 1 0 true (m + 1) ++ [.call 2 (.enq 0 true), .call 3 (.enq 9 true)] ++ fillLog 1 0 true (m + 1) ++ drainLog 0 0 (m + 1) ++
    [.call 0 .deq, .take 0, .ret 0 (.val (some 0))] ++ drainLog 0 0 m ++ [.call 1 (.enq 0 true), .enq 1 0, .ret 1 .yes] ++ fillLog 1 0 true m ++
    [.call 0 .deq, .take 0, .ret 0 (.val (some 0)), .call 4 (.enq 0 true), .call 0 (.rewind 7), .rewind 0 7, .ret 0 .yes] ++
    ([.call 0 (.rewind 8), .enq 3 9, .rewind 0 8, .ret 0 .yes] ++ backsLog 0 8 m) ++ [.call 0 .deq, .take 0, .ret 0 (.val (some 9))]

set_option maxHeartbeats 2000000 in
theorem lateWriteAny_log (m : Nat) : Ends (rrun (m + 1) (real (init Nat)) (lateWriteAny m)) (fun r => r.log = lateWriteSeen m) := by
  rw [real_init]
  simp only [lateWriteAny, List.flatten_cons, List.flatten_nil, List.append_nil]
  refine fill_then rfl rfl rfl rfl (by simp) ?_
  intro E0 A0 y s0 _
  clean at s0 ⊢
  exec [goes]
  refine fill_then rfl rfl rfl rfl (by simp) ?_
  intro E1 A1 y s1 _
  clean at s1 ⊢
  refine drain_then (e := 0) rfl rfl rfl (by simp) (fun k _ h => s0 k (by simpa using h)) ?_
  intro A0' y _
  clean
  exec [goes, (s1 0 (by omega)).1, (s1 0 (by omega)).2]
  refine drain_then (e := 0) rfl rfl rfl (by simp; omega) (fun k h h' => ?_) ?_
  · clean at h h' ⊢
    rw [upd_ne (by omega)]
    exact s1 k (by omega)
  intro A1' y _
  clean
  have e : 1 + m = m + 1 := Nat.add_comm 1 m
  exec [goes, e]
  refine fill_then rfl rfl rfl rfl (by simp; omega) ?_
  intro E2 A2 y s2 t2
  clean at s2 t2 ⊢
  obtain ⟨u1, u2⟩ := t2 0 (by omega)
  simp only [upd_same] at u1 u2
  exec [goes, u1, u2, e]
  refine backs_then (e := 8) rfl rfl rfl (by simp) (fun k h h' => ?_) ?_
  · clean at h h' ⊢
    obtain rfl : k = m := by omega
    simp
  intro E1' A1'' y s3
  clean at s3 ⊢
  obtain ⟨u3, u4⟩ := s3 0 (by omega) (by omega)
  exec [goes, e, u3, u4]
  exact ends_some (by simp [lateWriteSeen])

theorem ofThread_backs {α : Type} [DecidableEq α] (i : Nat) (e : α) (n : Nat) :
    ∃ p, [.call i (.rewind e), .ret i .yes] ++ ofThread i (backsLog i e n) = p ++ [.call i (.rewind e), .ret i .yes] := by
  induction n with
  | zero => exact ⟨[], by simp [backsLog, ofThread]⟩
  | succ n ih =>
    obtain ⟨p, hp⟩ := ih
    refine ⟨[.call i (.rewind e), .ret i .yes] ++ p, ?_⟩
    rw [List.append_assoc, ← hp, backsLog, ofThread_append]
    simp [ofThread]

/-- `staleHead`, where blocks have m + 1 elements, more than one. -/
def staleHeadAny (m : Nat) : List (Act Nat) :=
  [fill 3 1 true (m + 1), .start 3 (.enq 1 true) :: goes 3 28, fill 3 1 true m, drainM 2 (m + 1), .start 1 .deqM :: goes 1 1, .start 2 .deqM :: goes 2 28, drainM 2 m,
   .start 3 (.enq 3 true) :: goes 3 13, goes 1 5, goes 3 20, fill 3 3 true m, .start 2 .deqM :: goes 2 16, .start 3 (.enq 4 true) :: goes 3 33, goes 1 22, goes 2 7,
   .start 2 .deqM :: goes 2 7].flatten

theorem staleHeadAny_allowed (m : Nat) : ∀ a ∈ staleHeadAny m, a.allowed .multi := by
  unfold staleHeadAny
  allow

/-- What happens in it, up to the last dequeue. -/
def staleHeadSeen (m : Nat) : List (Ev Nat) :=
  fillLog 3 1 true (m + 1) ++ [.call 3 (.enq 1 true), .enq 3 1, .ret 3 .yes] ++ fillLog 3 1 true m ++ drainMLog 2 1 (m + 1) ++
    [.call 1 .deqM, .call 2 .deqM, .take 2, .ret 2 (.val (some 1))] ++ drainMLog 2 1 m ++ [.call 3 (.enq 3 true), .enq 3 3, .ret 3 .yes] ++ fillLog 3 3 true m ++
    [.call 2 .deqM, .call 3 (.enq 4 true), .enq 3 4, .ret 3 .yes, .take 1, .ret 1 (.val (some 4)), .empty 2, .ret 2 .no]

set_option maxHeartbeats 2000000 in
theorem staleHeadAny_log (m : Nat) (hm : 0 < m) : Ends (rrun (m + 1) (real (init Nat)) (staleHeadAny m)) (fun r => r.log = staleHeadSeen m ++ .call 2 .deqM :: [.empty 2] ++ [.ret 2 .no]) := by
  rw [real_init]
  simp only [staleHeadAny, List.flatten_cons, List.flatten_nil, List.append_nil]
  refine fill_then rfl rfl rfl rfl (by simp) ?_
  intro E0 A0 y s0 _
  clean at s0 ⊢
  exec [goes]
  have e : 1 + m = m + 1 := Nat.add_comm 1 m
  refine fill_then rfl rfl rfl rfl (by simp; omega) ?_
  intro E1 A1 y s1 t1
  clean at s1 t1 ⊢
  obtain ⟨u1, u2⟩ := t1 0 (by omega)
  simp only [upd_same] at u1 u2
  refine drainM_then (e := 1) rfl rfl rfl rfl (by simp) (fun k _ h => s0 k (by simpa using h)) ?_
  intro A0' y _
  clean
  exec [goes, u1, u2, e]
  refine drainM_then (e := 1) rfl rfl rfl rfl (by simp; omega) (fun k h h' => ?_) ?_
  · clean at h h' ⊢
    rw [upd_ne (by omega)]
    exact s1 k h h'
  intro A1' y _
  clean
  exec [goes, e]
  refine fill_then rfl rfl rfl rfl (by simp; omega) ?_
  intro E2 A2 y s2 t2
  clean at s2 t2 ⊢
  exec [goes, e, hm]
  exact ends_some (by simp [staleHeadSeen])

theorem acceptedIn_fill {α : Type} [DecidableEq α] {i n : Nat} {e : α} {u : Bool} (l : List (Ev α)) : acceptedIn (ofThread i (fillLog i e u n) ++ l) = List.replicate n e ++ acceptedIn l := by
  induction n with
  | zero => simp [fillLog, ofThread]
  | succ n ih =>
    have : ofThread i [Ev.call i (.enq e u), .enq i e, .ret i .yes] = [.call i (.enq e u), .ret i .yes] := by simp [ofThread]
    rw [fillLog, ofThread_append, this]
    simp [acceptedIn, ih, List.replicate_succ]

theorem thread_fill {α : Type} {i n : Nat} {e : α} {u : Bool} : ∀ x ∈ fillLog i e u n, threadOf x = i := by
  induction n with
  | zero => intro x h; cases h
  | succ n ih =>
    intro x h
    rcases List.mem_append.mp h with h | h
    · simp only [List.mem_cons, List.not_mem_nil, or_false] at h; rcases h with rfl | rfl | rfl <;> rfl
    · exact ih x h
theorem thread_drainM {α : Type} {i n : Nat} {e : α} : ∀ x ∈ drainMLog i e n, threadOf x = i := by
  induction n with
  | zero => intro x h; cases h
  | succ n ih =>
    intro x h
    rcases List.mem_append.mp h with h | h
    · simp only [List.mem_cons, List.not_mem_nil, or_false] at h; rcases h with rfl | rfl | rfl <;> rfl
    · exact ih x h

theorem staleHeadSeen_accepted (m : Nat) : 3 ∈ accepted 3 (staleHeadSeen m) := by
  have e1 (e : Nat) : ofThread 3 [Ev.call 3 (.enq e true), .enq 3 e, .ret 3 .yes] = [.call 3 (.enq e true), .ret 3 .yes] := rfl
  have e2 : ofThread 3 [Ev.call 1 (.deqM : Call Nat), .call 2 .deqM, .take 2, .ret 2 (.val (some 1))] = [] := rfl
  have e3 (e : Nat) (l : List (Ev Nat)) : acceptedIn ([.call 3 (.enq e true), .ret 3 .yes] ++ l) = e :: acceptedIn l := by simp [acceptedIn]
  simp only [accepted, staleHeadSeen, ofThread_append, ofThread_drainM (i := 2) (j := 3) (by decide), List.append_assoc, acceptedIn_fill, List.nil_append, e1, e2, e3]
  simp

theorem staleHeadSeen_dequeued (m : Nat) : 3 ∉ dequeued (staleHeadSeen m) := by
  simp only [staleHeadSeen, dequeued_append, dequeued_fill, dequeued_drainM]
  simp [dequeued]

theorem staleHeadSeen_quiet (m : Nat) : Quiet (staleHeadSeen m) := by
  intro i c
  have last : ∀ X : List (Ev Nat), ofThread i X = [] ∨ i = 1 ∨ i = 2 ∨ i = 3 →
      (ofThread i (X ++ [.call 2 .deqM, .call 3 (.enq 4 true), .enq 3 4, .ret 3 .yes, .take 1, .ret 1 (.val (some 4)), .empty 2, .ret 2 .no])).getLast? ≠ some (.call i c) := by
    intro X hX
    rw [ofThread_append]
    by_cases h : i = 1 ∨ i = 2 ∨ i = 3
    · rcases h with rfl | rfl | rfl <;> simp [ofThread]
    · rw [hX.resolve_right h]
      have h1 : ¬ 1 = i := by omega
      have h2 : ¬ 2 = i := by omega
      have h3 : ¬ 3 = i := by omega
      simp [ofThread, h1, h2, h3]
  refine last _ ?_
  by_cases h : i = 1 ∨ i = 2 ∨ i = 3
  · exact .inr h
  · refine .inl ?_
    have h1 : ¬ 1 = i := by omega
    have h2 : ¬ 2 = i := by omega
    have h3 : ¬ 3 = i := by omega
    simp only [ofThread_append, ofThread_fill h3, ofThread_drainM h2]
    simp [ofThread, h1, h2, h3]

theorem staleHeadSeen_threads (m : Nat) : ∀ e ∈ staleHeadSeen m, threadOf e < 4 := by
  simp only [staleHeadSeen, List.forall_mem_append]
  and_intros
  all_goals first
    | (intro e h; rw [thread_fill e h]; decide)
    | (intro e h; rw [thread_drainM e h]; decide)
    | decide

end Queue

/-- What C36 says of queues with blocks of B elements. -/
def C36_statement_at (B : Nat) : Prop :=
  ∀ (c : Nat) (acts : List (Act Nat)) (s : Queue.St Nat) (e : Nat) (x r : Ret Nat) (p p' : List (Ev Nat)),
    (∀ a ∈ acts, a.allowed (.single c)) → run B (init Nat) acts = some s →
    ofThread c s.log = p ++ [.call c (.rewind e), .ret c x, .call c .deq, .ret c r] ++ p' → x = .yes ∧ r = .val (some e)

/-- It is false whatever the size of the blocks: the consumer puts back 8, and gets 9. -/
theorem C36_violated_any (B : Nat) (hB : 0 < B) : ¬ C36_statement_at B := by
  intro h
  obtain ⟨m, rfl⟩ : ∃ m, B = m + 1 := ⟨B - 1, by omega⟩
  obtain ⟨s, hs, hl⟩ := run_of_ends (lateWriteAny_log m)
  obtain ⟨p, hp⟩ := ofThread_backs 0 8 m
  have key : ∀ X : List (Ev Nat), ofThread 0 (X ++ ([.call 0 (.rewind 8), .enq 3 9, .rewind 0 8, .ret 0 .yes] ++ backsLog 0 8 m) ++ [.call 0 .deq, .take 0, .ret 0 (.val (some 9))]) =
      (ofThread 0 X ++ p) ++ [.call 0 (.rewind 8), .ret 0 .yes, .call 0 .deq, .ret 0 (.val (some 9))] := by
    intro X
    have e1 : ofThread 0 [Ev.call 0 (.rewind (8 : Nat)), .enq 3 9, .rewind 0 8, .ret 0 .yes] = [Ev.call 0 (.rewind 8), .ret 0 .yes] := rfl
    have e2 : ofThread 0 [Ev.call 0 (.deq : Call Nat), .take 0, .ret 0 (.val (some 9))] = [Ev.call 0 .deq, .ret 0 (.val (some 9))] := rfl
    rw [ofThread_append, ofThread_append, ofThread_append, e1, e2, hp]
    simp
  have hk := (congrArg (ofThread 0) hl).trans (key _)
  have := (h 0 _ s 8 .yes (.val (some 9)) _ [] (lateWriteAny_allowed m) hs (by rw [hk, List.append_nil])).2
  cases this

/-- What C37 says of a queue with blocks of B elements. -/
def C37_statement_at (B : Nat) : Prop :=
  ∀ (acts : List (Act Nat)) (s : Queue.St Nat) (l mid : List (Ev Nat)) (i n : Nat),
    (∀ a ∈ acts, a.allowed .multi) → run B (init Nat) acts = some s →
    s.log = l ++ .call i .deqM :: mid ++ [.ret i .no] → Quiet l → (∀ e ∈ l, threadOf e < n) → (∀ e ∈ mid, threadOf e = i) → ofThread i mid = [] →
    ((List.range n).flatMap (fun j => accepted j l)).Perm (dequeued l)

/-- It is false whatever the size of the blocks: at the end the queue is found empty though the element 3, accepted, has not been dequeued. -/
theorem C37_violated_any (B : Nat) (hB : 0 < B) : ¬ C37_statement_at B := by
  intro h
  obtain ⟨m, rfl⟩ : ∃ m, B = m + 1 := ⟨B - 1, by omega⟩
  by_cases hm : 0 < m
  · obtain ⟨s, hs, hl⟩ := run_of_ends (staleHeadAny_log m hm)
    have := h _ s _ _ 2 4 (staleHeadAny_allowed m) hs hl (staleHeadSeen_quiet m) (staleHeadSeen_threads m) (by decide) (by decide)
    exact staleHeadSeen_dequeued m (this.mem_iff.mp (List.mem_flatMap.mpr ⟨3, by decide, staleHeadSeen_accepted m⟩))
  · obtain rfl : m = 0 := by omega
    obtain ⟨s, hs, hlog⟩ := Option.map_eq_some_iff.mp staleHead_log
    have := h staleHead s _ _ 2 4 staleHead_allowed hs hlog (quiet_of_check 4 (by decide)) (by decide) (by decide) (by decide)
    exact absurd this (by decide)

namespace Queue

/-- `stalled`, where blocks have m + 1 elements. -/
def stalledAny (m : Nat) : List (Act Nat) :=
  [.start 1 .add :: goes 1 8, .start 2 (.enq 9 false) :: goes 2 4, fill 1 1 false (m + 1), .start 1 (.enq 1 false) :: goes 1 33, fill 1 1 false m,
   drain 0 (m + 1), .start 0 .deq :: goes 0 15, drain 0 m, .start 0 .deq :: goes 0 4, .start 1 (.enq 3 false) :: goes 1 10].flatten

/-- What happens in it, up to the last enqueue. -/
def stalledSeen (m : Nat) : List (Ev Nat) :=
  [.call 1 .add, .ret 1 .none, .call 2 (.enq 9 false)] ++ fillLog 1 1 false (m + 1) ++ [.call 1 (.enq 1 false), .enq 1 1, .ret 1 .yes] ++ fillLog 1 1 false m ++
    drainLog 0 1 (m + 1) ++ [.call 0 .deq, .take 0, .ret 0 (.val (some 1))] ++ drainLog 0 1 m ++ [.call 0 .deq, .empty 0, .ret 0 .no]

set_option maxHeartbeats 2000000 in
theorem stalledAny_log (m : Nat) : Ends (rrun (m + 1) (real (init Nat)) (stalledAny m)) (fun r => r.log = stalledSeen m ++ [.call 1 (.enq 3 false), .refuse 1, .ret 1 .no]) := by
  rw [real_init]
  simp only [stalledAny, List.flatten_cons, List.flatten_nil, List.append_nil]
  exec [goes]
  have e : 1 + m = m + 1 := Nat.add_comm 1 m
  refine fill_then rfl rfl rfl rfl (by simp) ?_
  intro E0 A0 y s0 _
  clean at s0 ⊢
  exec [goes]
  refine fill_then rfl rfl rfl rfl (by simp; omega) ?_
  intro E1 A1 y s1 t1
  clean at s1 t1 ⊢
  obtain ⟨u1, u2⟩ := t1 0 (by omega)
  simp only [upd_same] at u1 u2
  refine drain_then (e := 1) rfl rfl rfl (by simp) (fun k _ h => s0 k (by simpa using h)) ?_
  intro A0' y _
  clean
  exec [goes, u1, u2, e]
  refine drain_then (e := 1) rfl rfl rfl (by simp; omega) (fun k h h' => ?_) ?_
  · clean at h h' ⊢
    rw [upd_ne (by omega)]
    exact s1 k h h'
  intro A1' y _
  clean
  exec [goes, e]
  exact ends_some (by simp [stalledSeen])

theorem stalledAny_allowed (m : Nat) : ∀ a ∈ stalledAny m, a.allowed (.single 0) := by
  unfold stalledAny
  allow

theorem grows_goes {α : Type} {i n : Nat} : ∀ a ∈ goes (α := α) i n, a.grows = false := fun a h => by rw [mem_goes h]; rfl
theorem grows_fill {α : Type} {i n : Nat} {e : α} : ∀ a ∈ fill i e false n, a.grows = false := fun a h => by rcases mem_fill h with rfl | rfl <;> rfl
theorem grows_drain {α : Type} {i n : Nat} : ∀ a ∈ drain (α := α) i n, a.grows = false := fun a h => by rcases mem_drain h with rfl | rfl <;> rfl

theorem stalledAny_grows (m : Nat) : ∀ a ∈ stalledAny m, a.grows = false := by
  simp only [stalledAny, List.flatten_cons, List.flatten_nil, List.append_nil, List.forall_mem_append, List.forall_mem_cons]
  and_intros
  all_goals first
    | with_reducible exact grows_goes
    | with_reducible exact grows_fill
    | with_reducible exact grows_drain
    | rfl

theorem thread_drain {α : Type} {i n : Nat} {e : α} : ∀ x ∈ drainLog i e n, threadOf x = i := by
  induction n with
  | zero => intro x h; cases h
  | succ n ih =>
    intro x h
    rcases List.mem_append.mp h with h | h
    · simp only [List.mem_cons, List.not_mem_nil, or_false] at h; rcases h with rfl | rfl | rfl <;> rfl
    · exact ih x h

theorem blocks_append {α : Type} (l m : List (Ev α)) : blocks (l ++ m) = blocks l + blocks m := List.countP_append
theorem blocks_fill {α : Type} {i n : Nat} {e : α} {u : Bool} : blocks (fillLog i e u n) = 0 := by
  induction n with
  | zero => rfl
  | succ n ih => rw [fillLog, blocks_append, ih]; rfl
theorem blocks_drain {α : Type} {i n : Nat} {e : α} : blocks (drainLog i e n) = 0 := by
  induction n with
  | zero => rfl
  | succ n ih => rw [drainLog, blocks_append, ih]; rfl

theorem stalledSeen_dequeued (m : Nat) : (dequeued (stalledSeen m)).length = (m + 1) + (m + 1) := by
  simp only [stalledSeen, dequeued_append, dequeued_fill, dequeued_drain]
  simp [dequeued]

theorem acceptedIn_drain {α : Type} [DecidableEq α] {i n : Nat} {e : α} (l : List (Ev α)) : acceptedIn (ofThread i (drainLog i e n) ++ l) = acceptedIn l := by
  induction n with
  | zero => simp [drainLog, ofThread]
  | succ n ih =>
    have : ofThread i [Ev.call i (.deq : Call α), .take i, .ret i (.val (some e))] = [.call i .deq, .ret i (.val (some e))] := by simp [ofThread]
    rw [drainLog, ofThread_append, this]
    simp [acceptedIn, ih]

theorem stalledSeen_accepted (m : Nat) : acceptedCount 3 (stalledSeen m) = (m + 1) + (m + 1) := by
  have h0 : accepted 0 (stalledSeen m) = [] := by
    have e1 : ofThread 0 [Ev.call 1 (.add : Call Nat), .ret 1 .none, .call 2 (.enq 9 false)] = [] := rfl
    have e2 : ofThread 0 [Ev.call 1 (.enq 1 false), .enq 1 1, .ret 1 .yes] = [] := rfl
    have e3 : ofThread 0 [Ev.call 0 (.deq : Call Nat), .take 0, .ret 0 (.val (some 1))] = [.call 0 .deq, .ret 0 (.val (some 1))] := rfl
    have e4 : ofThread 0 [Ev.call 0 (.deq : Call Nat), .empty 0, .ret 0 .no] = [.call 0 .deq, .ret 0 .no] := rfl
    have e5 (x : Ret Nat) (l : List (Ev Nat)) : acceptedIn ([.call 0 .deq, .ret 0 x] ++ l) = acceptedIn l := by simp [acceptedIn]
    have e6 (x : Ret Nat) : acceptedIn [Ev.call 0 .deq, .ret 0 x] = [] := by simp [acceptedIn]
    simp only [accepted, stalledSeen, ofThread_append, ofThread_fill (i := 1) (j := 0) (by decide), e1, e2, e3, e4, List.nil_append, List.append_assoc, acceptedIn_drain, e5, e6]
  have h1 : (accepted 1 (stalledSeen m)).length = (m + 1) + (m + 1) := by
    have e1 : ofThread 1 [Ev.call 1 (.add : Call Nat), .ret 1 .none, .call 2 (.enq 9 false)] = [.call 1 .add, .ret 1 .none] := rfl
    have e2 : ofThread 1 [Ev.call 1 (.enq 1 false), .enq 1 1, .ret 1 .yes] = [.call 1 (.enq 1 false), .ret 1 .yes] := rfl
    have e3 : ofThread 1 [Ev.call 0 (.deq : Call Nat), .take 0, .ret 0 (.val (some 1))] = [] := rfl
    have e4 : ofThread 1 [Ev.call 0 (.deq : Call Nat), .empty 0, .ret 0 .no] = [] := rfl
    have e5 (l : List (Ev Nat)) : acceptedIn ([.call 1 .add, .ret 1 .none] ++ l) = acceptedIn l := by simp [acceptedIn]
    have e6 (l : List (Ev Nat)) : acceptedIn ([.call 1 (.enq 1 false), .ret 1 .yes] ++ l) = 1 :: acceptedIn l := by simp [acceptedIn]
    have e7 : acceptedIn (ofThread 1 (fillLog 1 1 false m)) = List.replicate m 1 := by simpa [acceptedIn] using acceptedIn_fill (i := 1) (n := m) (e := 1) (u := false) []
    simp only [accepted, stalledSeen, ofThread_append, ofThread_drain (i := 0) (j := 1) (by decide), e1, e2, e3, e4, List.append_nil, List.append_assoc, acceptedIn_fill, e5, e6, e7]
    simp
  have h2 : accepted 2 (stalledSeen m) = [] := by
    have e1 : ofThread 2 [Ev.call 1 (.add : Call Nat), .ret 1 .none, .call 2 (.enq 9 false)] = [.call 2 (.enq 9 false)] := rfl
    simp only [accepted, stalledSeen, ofThread_append, ofThread_fill (i := 1) (j := 2) (by decide), ofThread_drain (i := 0) (j := 2) (by decide), e1]
    simp [ofThread, acceptedIn]
  have e : List.range 3 = [0, 1, 2] := rfl
  simp [acceptedCount, e, h0, h1, h2]

end Queue

/-- The first part of C35, for queues with blocks of B elements. -/
def C35_never_when_empty_at (B : Nat) : Prop :=
  ∀ (c n : Nat) (m : Mode) (acts : List (Act Nat)) (s : Queue.St Nat) (o : List (Ev Nat)) (i e : Nat) (r : Ret Nat),
    (∀ a ∈ acts, a.allowed m) → (∀ a ∈ acts, a.grows = false) → run B (init Nat) acts = some s → Configured B c s.log → (∀ e ∈ s.log, threadOf e < n) →
    o ++ [.call i (.enq e false), .ret i r] <+: observed s.log → acceptedCount n o = (dequeued o).length → r = .yes

/-- It is false whatever the size of the blocks. -/
theorem C35_violated_any (B : Nat) (hB : 0 < B) : ¬ C35_never_when_empty_at B := by
  intro h
  obtain ⟨m, rfl⟩ : ∃ m, B = m + 1 := ⟨B - 1, by omega⟩
  obtain ⟨s, hs, hl⟩ := run_of_ends (stalledAny_log m)
  have := h (m + 1) 3 (.single 0) _ s (observed (stalledSeen m)) 1 3 .no (stalledAny_allowed m) (stalledAny_grows m) hs ?_ ?_ ?_ ?_
  · cases this
  · refine ⟨[.call 1 .add, .ret 1 .none], [.call 2 (.enq 9 false)] ++ fillLog 1 1 false (m + 1) ++ [.call 1 (.enq 1 false), .enq 1 1, .ret 1 .yes] ++ fillLog 1 1 false m ++
      drainLog 0 1 (m + 1) ++ [.call 0 .deq, .take 0, .ret 0 (.val (some 1))] ++ drainLog 0 1 m ++ [.call 0 .deq, .empty 0, .ret 0 .no] ++ [.call 1 (.enq 3 false), .refuse 1, .ret 1 .no], ?_,
      quiet_of_check 2 (by decide), by simp, ?_, ?_⟩
    · rw [hl]; simp [stalledSeen]
    · rw [rounds, Nat.div_self (by omega)]; rfl
    · simp only [blocks_append, blocks_fill, blocks_drain]; rfl
  · rw [hl]
    simp only [stalledSeen, List.forall_mem_append]
    and_intros
    all_goals first
      | (intro e h; rw [thread_fill e h]; decide)
      | (intro e h; rw [thread_drain e h]; decide)
      | decide
  · rw [hl, observed_append]; exact List.prefix_refl _
  · rw [acceptedCount_observed, dequeued_observed, stalledSeen_accepted, stalledSeen_dequeued]

end Salticidae
