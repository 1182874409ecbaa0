import Verif.Spec.QueueGone
import Verif.Lemmas.QueueGone
import Verif.Props.Queue
/-!
C127.
-/
namespace Salticidae
open Queue Spec.QueueGone

/-- Whatever was done with a queue: once no operation is running, its destructor frees all of its memory, and nothing twice. -/
def C127_statement : Prop :=
  ∀ (α : Type) [DecidableEq α] (B : Nat) (m : Mode) (acts : List (Act α)) (s : Queue.St α), 0 < B → (∀ a ∈ acts, a.allowed m) → run B (init α) acts = some s → AllIdle s → Destroyed s

/-- As in lateClear (C34), with a second producer, 5, that has read block 1 as the queue's tail: it finds that block full, and makes its new block, 3, the tail.  Producer 4, to which block 1 belongs, does
not link it (its compare-exchange fails), and gives it back; later it takes it again and links it behind block 3, which is not in the queue; producer 2 does the same with block 0. -/
def lateClear2 : List (Act Nat) :=
  [.start 1 (.enq 1 true)] ++ goN 1 11 ++ [.start 2 (.enq 2 true)] ++ goN 2 13 ++ [.start 3 (.enq 9 true)] ++ goN 3 1 ++ [.start 5 (.enq 6 true)] ++ goN 5 1 ++ [.start 1 (.enq 3 true)] ++ goN 1 11 ++
  [.start 0 .deq] ++ goN 0 7 ++ [.start 0 .deq] ++ goN 0 15 ++ [.start 1 (.enq 4 true)] ++ goN 1 28 ++ [.start 0 .deq] ++ goN 0 19 ++ goN 2 1 ++
  [.start 4 (.enq 5 true)] ++ goN 4 16 ++ goN 3 10 ++ goN 5 27 ++ [.go 4 false] ++ goN 4 42 ++ goN 2 40

theorem lateClear2_allowed : ∀ a ∈ lateClear2, a.allowed (.single 0) := by decide +kernel

theorem lateClear2_end : (run 1 (init Nat) lateClear2).map (fun s => ((List.range 6).map s.pc, s.fl.alloc, (QueueGone.run 0 (QueueGone.start s) (List.replicate 5 true)).pc,
    (QueueGone.run 0 (QueueGone.start s) (List.replicate 5 true)).gone)) =
    some ([.idle (.val (some 4)), .idle .yes, .idle .yes, .idle .yes, .idle .yes, .idle .yes], 4, .ended, [2]) := by decide +kernel

theorem stays {B : Nat} {α : Type} [DecidableEq α] {j : Nat} : ∀ {acts : List (Act α)} {s s' : Queue.St α}, (∀ a ∈ acts, a.of ≠ j) → run B s acts = some s' → s'.pc j = s.pc j
  | [], s, s', _, h => by cases h; rfl
  | a :: as, s, s', ha, h => by
    simp only [run, Option.bind_eq_some_iff] at h
    obtain ⟨s1, h1, h2⟩ := h
    rw [stays (fun x hx => ha x (by simp [hx])) h2]
    have hj := ha a (by simp)
    cases a with
    | start i c =>
      simp only [Queue.step] at h1
      split at h1
      · cases h1; simp only [Queue.St.setPc, Queue.St.rcd]; rw [FreeList.upd_other]; exact fun e => hj e.symm
      · cases h1
    | go i ch =>
      simp only [Queue.step] at h1
      split at h1
      · exact (local_pc h1 j (fun e => hj e.symm)).1
      · simp only [Option.map_eq_some_iff] at h1
        obtain ⟨fl, _, h3⟩ := h1
        subst h3; rfl

/-- A producer that clears the mark of a block late makes others link their blocks to one that is not in the queue: these blocks, with elements of enqueues that returned true, are never deleted. -/
theorem C127_violated : ¬ C127_statement := by
  intro h
  obtain ⟨s, hs, he⟩ := Option.map_eq_some_iff.mp lateClear2_end
  simp only [Prod.mk.injEq] at he
  obtain ⟨h1, h2, h3, h4⟩ := he
  have hidle : AllIdle s := by
    intro j
    by_cases hj : j < 6
    · have h5 : (List.map s.pc (List.range 6))[j]? = some (s.pc j) := by simp [hj]
      rw [h1] at h5
      match j, hj with
      | 0, _ | 1, _ | 2, _ | 3, _ | 4, _ | 5, _ => exact ⟨_, (Option.some.inj h5).symm⟩
    · refine ⟨.none, ?_⟩
      have : ∀ a ∈ lateClear2, a.of < 6 := by decide +kernel
      exact stays (j := j) (fun a ha e => hj (e ▸ this a ha)) hs
  have hd := (h Nat 1 (.single 0) lateClear2 s (by omega) lateClear2_allowed hs hidle 0 (List.replicate 5 true)).2.1 h3
  rw [h4, h2] at hd
  have := (hd.2 0).2 (by omega)
  simp at this

/-- It does, if no block is given back while the producer that linked it in an unbounded enqueue is still about to clear its mark (and, with several consumers, a consumer's reference is to the block that is then the
head); … -/
theorem C127_timely_partial {α : Type} [DecidableEq α] {B : Nat} {m : Mode} {acts : List (Act α)} {s : Queue.St α} (hB : 0 < B) (ha : ∀ a ∈ acts, a.allowed m) (ht : Timely B acts)
    (hf : m = .multi → Fresh B acts) (h : run B (init α) acts = some s) (hi : AllIdle s) : Destroyed s := by
  intro i chs
  obtain ⟨k, ki⟩ := inv_run hB (inv_init B m) idle_init h ha ht hf
  have kk := priv_run hB (inv_init B m) idle_init prog_init priv_init h ha ht hf
  obtain ⟨j, hp⟩ := QueueGone.j_start k ki kk hi i
  obtain ⟨h1, h2⟩ := QueueGone.k_run k.nd (chs := chs) (.pops j) hp
  refine ⟨QueueGone.k_not_ub h1, fun he => ?_, ?_⟩
  · cases h1 with
    | pops h => rcases h.pc with ⟨h, _⟩ | ⟨h, _⟩ <;> rw [h] at he <;> cases he
    | walk p l h _ => rw [h] at he; cases he
    | ended _ nd al => exact ⟨nd, fun u => by rw [← al u, h2.2.2]; rfl⟩
  · obtain ⟨n, hn⟩ := QueueGone.k_ends k.nd h1 (by rw [h2.1, h2.2.1]; exact hp)
    exact ⟨n, by rw [QueueGone.run_append]; exact hn⟩

/-- … so it does when every enqueue is bounded, … -/
theorem C127_bounded_partial {α : Type} [DecidableEq α] {B c : Nat} {acts : List (Act α)} {s : Queue.St α} (hB : 0 < B) (ha : ∀ a ∈ acts, a.allowed (.single c))
    (hb : ∀ a ∈ acts, ∀ i e, a ≠ .start i (.enq e true)) (h : run B (init α) acts = some s) (hi : AllIdle s) : Destroyed s :=
  C127_timely_partial hB ha (timely_bounded (fun _ => rfl) hb) (fun e => by cases e) h hi

/-- … and when there is one producer. -/
theorem C127_single_producer_partial {α : Type} [DecidableEq α] {B c p : Nat} {acts : List (Act α)} {s : Queue.St α} (hB : 0 < B) (ha : ∀ a ∈ acts, a.allowed (.single c))
    (hp : ∀ a ∈ acts, ∀ i e u, a = .start i (.enq e u) → i = p) (h : run B (init α) acts = some s) (hi : AllIdle s) : Destroyed s :=
  C127_timely_partial hB ha (timely_sole hB (inv_init B (.single c)) idle_init (sole_init p) ha (fun e => by cases e) hp) (fun e => by cases e) h hi

/-- Two blocks in the queue, one in the free list. -/
def goneRun : List (Act Nat) := inTurn 1 (init Nat) [(1, .enq 1 true), (1, .enq 2 true), (1, .enq 3 true), (0, .deq), (0, .deq)]

example : ∃ s, run 1 (init Nat) goneRun = some s ∧ AllIdle s ∧ Destroyed s ∧ (QueueGone.run 0 (QueueGone.start s) (List.replicate 20 true)).pc = .ended ∧
    (QueueGone.run 0 (QueueGone.start s) (List.replicate 20 true)).gone = [2, 1, 0] := by
  have e : (run 1 (init Nat) goneRun).map (fun s => ((List.range 2).map s.pc, (QueueGone.run 0 (QueueGone.start s) (List.replicate 20 true)).pc, (QueueGone.run 0 (QueueGone.start s) (List.replicate 20 true)).gone)) =
    some ([.idle (.val (some 2)), .idle .yes], .ended, [2, 1, 0]) := by decide +kernel
  obtain ⟨s, h, hl⟩ := Option.map_eq_some_iff.mp e
  simp only [Prod.mk.injEq] at hl
  obtain ⟨h1, h2, h3⟩ := hl
  have hidle : AllIdle s := by
    intro j
    by_cases hj : j < 2
    · have h5 : (List.map s.pc (List.range 2))[j]? = some (s.pc j) := by simp [hj]
      rw [h1] at h5
      match j, hj with
      | 0, _ | 1, _ => exact ⟨_, (Option.some.inj h5).symm⟩
    · refine ⟨.none, ?_⟩
      have : ∀ a ∈ goneRun, a.of < 2 := by decide +kernel
      exact stays (j := j) (fun a ha e => hj (e ▸ this a ha)) h
  refine ⟨s, h, hidle, C127_single_producer_partial (c := 0) (p := 1) (by omega) (by decide +kernel) ?_ h hidle, h2, h3⟩
  have : ∀ a ∈ goneRun, (match a with | .start i (.enq _ _) => i == 1 | _ => true) = true := by decide +kernel
  intro a ha i x u hx
  subst hx
  simpa using this _ ha

end Salticidae
