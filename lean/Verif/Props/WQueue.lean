import Verif.Lemmas.WQueue
import Verif.Lemmas.WQueueAny2
/-
Property C95: the event-driven queue in the memory model of C++.
-/
namespace Salticidae
open WQ

/-! ## C95: MPSCQueueEventDriven with the memory orders of the code -/

/-- Nothing is going on: every call of enqueue has returned, the handler is not running, and the file descriptor will not make the event loop call it. -/
def WQ.Rest (s : St) : Prop := (∀ th ∈ s.ths, th.pc = .idle) ∧ s.fd = 0

/-- The calls of enqueue in an execution: which thread, which element. -/
def WQ.called (as : List Act) : List (Nat × Nat) := as.filterMap fun
  | .call i e => some (i, e)
  | _ => none

/-- What thread `i` enqueued, in this order. -/
def WQ.calledBy (as : List Act) (i : Nat) : List Nat := ((called as).filter (·.1 = i)).map (·.2)

/-- No data race on an element; when nothing is going on, the consumer has got every element that was enqueued, once, and those of each thread in the order of its calls. -/
def WQ.Good (as : List Act) (k : Nat) (s : St) : Prop :=
  s.race = false ∧
  (∀ e, s.out.count e ≤ ((called as).map (·.2)).count e) ∧
  (Rest s → s.out.Perm ((called as).map (·.2)) ∧ ∀ i, i ≤ k → (calledBy as i).Sublist s.out)

/-- The full statement of C95, for blocks of any size. -/
def C95_statement : Prop :=
  ∀ (size k : Nat) (as : List Act) (s : St), 0 < size → run size (init k) as = some s → Good as k s

/-- An execution with two producers and blocks of one element: thread 1 enqueues 11; thread 2 begins to enqueue 13 and stops while it holds a reference to
the first block; thread 1 enqueues 12, which takes a second block; the consumer dequeues both and gives the first block back; thread 2 goes on: its is the last reference to the
first block, so it puts it in the free list, takes it out again and resets it.  As `release_ref` is relaxed, nothing orders the consumer's store to the head index of the block
before the reset: the consumer's store comes later in the modification order (at 5, the reset at 2). -/
def WQ.lostRun : List Act := [
  .call 1 11, .step 1 0 true, .step 1 0 true, .step 1 0 true, .step 1 0 true, .step 1 0 true, .step 1 0 true, .step 1 0 true, .step 1 1 true,
  .step 1 1 true, .step 1 0 true, .step 1 0 true, .call 2 13, .step 2 0 true, .step 2 2 true, .step 2 2 true, .call 1 12, .step 1 0 true,
  .step 1 3 true, .step 1 3 true, .step 1 0 true, .step 1 1 true, .step 1 0 true, .step 1 0 true, .step 1 1 true, .step 1 1 true, .step 1 1 true,
  .step 1 0 true, .step 1 1 true, .step 1 1 true, .step 1 4 true, .step 1 1 true, .step 1 0 true, .step 1 0 true, .step 1 1 true, .step 1 1 true,
  .step 1 1 true, .step 1 0 true, .step 1 1 true, .step 1 1 true, .step 1 1 true, .fire, .step 0 0 true, .step 0 2 true, .step 0 0 true,
  .step 0 0 true, .step 0 1 true, .step 0 5 true, .step 0 1 true, .step 0 0 true, .step 0 2 true, .step 0 0 true, .step 0 5 true, .step 0 1 true,
  .step 0 1 true, .step 0 1 true, .step 0 1 true, .step 0 5 true, .step 0 1 true, .step 0 1 true, .step 0 2 true, .step 0 2 true, .step 0 1 true,
  .step 0 0 true, .step 0 2 true, .step 0 1 true, .step 0 2 true, .step 0 2 true, .step 0 1 true, .step 2 1 true, .step 2 6 true, .step 2 0 true,
  .step 2 1 true, .step 2 0 true, .step 2 8 true, .step 2 1 true, .step 2 2 true, .step 2 2 true, .step 2 1 true, .step 2 2 true, .step 2 1 true,
  .step 2 1 true, .step 2 8 true, .step 2 8 true, .step 2 1 true, .step 2 1 true, .step 2 9 true, .step 2 2 true, .step 2 2 true, .step 2 2 true,
  .step 2 1 true, .step 2 2 true, .step 2 2 true, .step 2 3 true, .step 2 2 true, .step 2 10 true, .step 2 10 true, .step 2 2 true, .step 2 2 true,
  .step 2 2 true, .step 2 0 true, .step 2 3 true, .step 2 11 true, .step 2 3 true, .step 2 0 true, .fire, .step 0 0 true, .step 0 4 true,
  .step 0 1 true, .step 0 2 true, .step 0 2 true, .step 0 2 true, .step 0 2 true, .step 0 2 true, .step 0 4 true, .step 0 2 true, .step 0 1 true,
  .step 0 2 true, .step 0 6 true, .step 0 2 true, .step 0 5 true, .step 0 3 true, .step 0 2 true]

/-- The element 13 is lost: the call has returned true, nothing is going on, and the consumer has seen 11 and 12 only.  The consumer takes the head index of the reused block for 1, and so the block for empty. -/
theorem C95_violated_lost : ∃ s, run 1 (init 2) lostRun = some s ∧ Rest s ∧ s.acc = [11, 12, 13] ∧ s.out = [11, 12] := by
  have h : (run 1 (init 2) lostRun).map (fun s => (s.ths.map (·.pc), s.fd, s.acc, s.out)) = some ([.idle, .idle, .idle], 0, [11, 12, 13], [11, 12]) := by
    decide +kernel
  obtain ⟨s, h1, h2⟩ := Option.map_eq_some_iff.mp h
  simp only [Prod.mk.injEq] at h2
  refine ⟨s, h1, ⟨?_, h2.2.1⟩, h2.2.2.1, h2.2.2.2⟩
  intro th hth
  have : th.pc ∈ s.ths.map (·.pc) := List.mem_map_of_mem hth
  rw [h2.1] at this
  simpa using this

/-- One producer is enough: it enqueues 11, and begins to enqueue 12, which takes a second block; it stops before it gives back its reference to the first one.  The consumer, whose handler
is running, dequeues 11 and gives the first block back.  The producer goes on: its is the last reference, so the block goes to the free list, and it takes it out again for 13 and resets it.  Its
own reference count is all it has read from the consumer meanwhile, with a relaxed operation: the consumer's store to the head index (at 5) may come after the reset (at 2). -/
def WQ.lostRun1 : List Act := [
  .call 1 11, .step 1 0 true, .step 1 0 true, .step 1 0 true, .step 1 0 true, .step 1 0 true, .step 1 0 true, .step 1 0 true, .step 1 1 true,
  .step 1 1 true, .step 1 0 true, .step 1 0 true, .fire, .step 0 0 true, .step 0 1 true, .call 1 12, .step 1 0 true, .step 1 2 true, .step 1 2 true,
  .step 1 0 true, .step 1 1 true, .step 1 0 true, .step 1 0 true, .step 1 1 true, .step 1 1 true, .step 1 1 true, .step 1 0 true, .step 1 1 true,
  .step 1 1 true, .step 0 0 true, .step 0 0 true, .step 0 1 true, .step 0 5 true, .step 0 1 true, .step 0 0 true, .step 0 2 true, .step 0 0 true,
  .step 0 5 true, .step 0 1 true, .step 0 1 true, .step 0 1 true, .step 0 1 true, .step 0 3 true, .step 0 1 true, .step 0 1 true, .step 0 1 true,
  .step 1 4 true, .step 1 0 true, .step 1 1 true, .step 1 0 true, .step 1 6 true, .step 1 1 true, .step 1 0 true, .step 1 0 true, .step 1 1 true,
  .step 1 1 true, .step 1 1 true, .step 1 0 true, .step 1 1 true, .step 1 1 true, .step 1 2 true, .step 1 0 true, .call 1 13, .step 1 1 true,
  .step 1 2 true, .step 1 2 true, .step 1 1 true, .step 1 2 true, .step 1 1 true, .step 1 1 true, .step 1 6 true, .step 1 6 true, .step 1 1 true,
  .step 1 1 true, .step 1 7 true, .step 1 2 true, .step 1 2 true, .step 1 2 true, .step 1 1 true, .step 1 2 true, .step 1 2 true, .step 1 3 true,
  .step 1 2 true, .step 1 8 true, .step 1 8 true, .step 1 2 true, .step 1 2 true, .step 1 2 true, .step 1 0 true, .step 1 3 true, .step 1 9 true,
  .step 1 3 true, .fire, .step 0 0 true, .step 0 4 true, .step 0 1 true, .step 0 1 true, .step 0 2 true, .step 0 2 true, .step 0 1 true,
  .step 0 0 true, .step 0 2 true, .step 0 1 true, .step 0 2 true, .step 0 2 true, .step 0 2 true, .step 0 2 true, .step 0 2 true, .step 0 4 true,
  .step 0 2 true, .step 0 1 true, .step 0 2 true, .step 0 6 true, .step 0 2 true, .step 0 5 true, .step 0 3 true, .step 0 2 true]

/-- With one producer and one consumer, too, an element is lost. -/
theorem C95_violated_one_producer : ∃ s, run 1 (init 1) lostRun1 = some s ∧ Rest s ∧ s.acc = [11, 12, 13] ∧ s.out = [11, 12] := by
  have h : (run 1 (init 1) lostRun1).map (fun s => (s.ths.map (·.pc), s.fd, s.acc, s.out)) = some ([.idle, .idle], 0, [11, 12, 13], [11, 12]) := by
    decide +kernel
  obtain ⟨s, h1, h2⟩ := Option.map_eq_some_iff.mp h
  simp only [Prod.mk.injEq] at h2
  refine ⟨s, h1, ⟨?_, h2.2.1⟩, h2.2.2.1, h2.2.2.2⟩
  intro th hth
  have : th.pc ∈ s.ths.map (·.pc) := List.mem_map_of_mem hth
  rw [h2.1] at this
  simpa using this

/-- The full statement fails: an element is lost in an execution that the memory orders of the code allow. -/
theorem C95_violated : ¬ C95_statement := by
  intro h
  obtain ⟨s, h1, h2, h3, h4⟩ := C95_violated_lost
  have := (h 1 2 lostRun s (by decide) h1).2.2 h2
  have h5 := this.1.length_eq
  rw [h4] at h5
  exact absurd h5 (by decide)

/-- The statement for blocks of `size` elements. -/
def C95_statement_at (size : Nat) : Prop := ∀ (k : Nat) (as : List Act) (s : St), run size (init k) as = some s → Good as k s

/-- With blocks of any size, 4096 as in the code: one producer calls enqueue `2 * size + 1` times, all calls return, and when nothing is going on any more one element has not arrived. -/
theorem C95_violated_any_lost (size : Nat) (h0 : 0 < size) :
    ∃ as s, run size (init 1) as = some s ∧ Rest s ∧ (called as).length = 2 * size + 1 ∧ s.out.length = 2 * size := by
  obtain ⟨as, s, h1, h2, h3, h4, h5⟩ := lost_any h0
  refine ⟨as, s, h1, ⟨h3, h4⟩, ?_, h5⟩
  rw [← h2]
  unfold called
  congr 2

/-- So that C95 fails for every size of blocks. -/
theorem C95_violated_any (size : Nat) (h0 : 0 < size) : ¬ C95_statement_at size := by
  intro h
  obtain ⟨as, s, h1, h2, h3, h4⟩ := C95_violated_any_lost size h0
  have h5 := (((h 1 as s h1).2.2 h2).1).length_eq
  rw [List.length_map, h3, h4] at h5
  omega

/-- C95 as long as no block is full before: at most `size` (4096 in the code) calls of enqueue, by any number of threads, in any interleaving and with any values that the memory model lets the loads read.
Missing: more calls than that, see `C95_violated_any` (`2 * size + 1` calls). -/
theorem C95_one_block_partial (size k : Nat) (as : List Act) (s : St) (hc : (called as).length ≤ size) (h : run size (init k) as = some s) : Good as k s := by
  have hca : as.filterMap Act.call? = called as := by
    unfold called
    congr 1
  obtain ⟨i1, i2, i3⟩ := init_inv size k
  have hth : ∀ (i : Nat) (th : Thr), (init k).ths[i]? = some th → th = ⟨[], .idle⟩ := by
    intro i th h
    have := List.mem_of_getElem? h
    exact List.eq_of_mem_replicate this
  have hcnt : ∀ p : Thr → Bool, p ⟨[], .idle⟩ = false → (init k).ths.countP p = 0 := by
    intro p hp
    simp [init, List.countP_replicate, hp]
  have i4 : I4 [] (init k) := by
    refine ⟨fun e => ?_, fun i th _ _ => by simp [callsOf], fun i th e h he => ?_⟩
    · rw [hcnt _ rfl]; simp [init]
    · rw [hth i th h] at he; cases he
  obtain ⟨j1, j2, j3, j4, j5⟩ := run_inv i1 i2 i3 i4 (by rw [hcnt _ rfl, hca]; simpa [init] using hc) h
  rw [List.nil_append, hca] at j4
  refine ⟨j2.race, fun e => ?_, fun hr => ?_⟩
  · rw [← j4.cnt e]
    exact Nat.le_trans (List.Sublist.count_le _ j2.pf.sublist) (Nat.le_add_right _ _)
  · have hidle : ∀ (i : Nat) (th : Thr), s.ths[i]? = some th → th.pc = .idle := fun i th h => hr.1 th (List.mem_of_getElem? h)
    have hlen : s.ths.length = k + 1 := by rw [j5]; simp [init]
    have hth0 : ∃ th, s.ths[0]? = some th := ⟨_, List.getElem?_eq_getElem (by omega)⟩
    obtain ⟨th0, h0⟩ := hth0
    obtain ⟨m, hm⟩ := Weak.look_last WQ.ini s.mem .sig
    have hval : m.val = 1 := by
      apply Classical.byContradiction
      intro hv
      rcases j3.wake m hm hv with ⟨i, th, h1, h2⟩ | h1 | ⟨th, h1, h2⟩
      · rw [hidle i th h1] at h2; cases h2
      · rw [hr.2] at h1; cases h1
      · rw [hidle 0 th h1] at h2; cases h2
    have hout : s.out = s.acc := by
      have hall : ∀ a, a < s.acc.length → a < s.out.length := by
        rcases (j3.seen m th0 hm hval h0).idle (hidle 0 th0 h0) with h1 | h1
        · rw [hr.2] at h1; cases h1
        · intro a ha
          refine h1 a ha ?_
          rintro ⟨i, th, h2, h3⟩
          rw [hidle i th h2] at h3; cases h3
      refine j2.pf.eq_of_length (Nat.le_antisymm j2.pf.length_le ?_)
      apply Classical.byContradiction
      intro hc
      have := hall s.out.length (by omega)
      omega
    have hpre : ∀ e, s.ths.countP (preIs e) = 0 := by
      intro e
      rw [List.countP_eq_zero]
      intro th hth
      rw [preIs, hr.1 th hth]; simp [preElem]
    refine ⟨List.perm_iff_count.mpr fun e => ?_, fun i hi => ?_⟩
    · have := j4.cnt e
      rw [hpre e] at this
      rw [hout]; exact this
    · rw [hout]
      have hi' : s.ths[i]? = some s.ths[i] := List.getElem?_eq_getElem (by omega)
      exact j4.done i _ hi' (by rw [hidle i _ hi']; rfl)

/-- Non-vacuity: two producers at once, blocks of two elements; thread 2 gets the first place, thread 1 writes its element first; the consumer reads the availability flag of thread 2 once too early. -/
example : (run 2 (init 2) [
    .call 1 5, .call 2 6, .step 2 0 true, .step 2 0 true, .step 2 0 true, .step 2 0 true, .step 2 0 true, .step 2 0 true, .step 1 0 true,
    .step 1 1 true, .step 1 1 true, .step 1 0 true, .step 1 1 true, .step 1 1 true, .step 1 0 true, .step 1 1 true, .step 1 2 true, .step 1 0 true,
    .step 1 0 true, .fire, .step 0 0 true, .step 0 1 true, .step 0 0 true, .step 0 0 true, .step 0 2 true, .step 0 1 true, .step 0 0 true,
    .step 2 0 true, .step 2 1 true, .step 2 3 true, .step 2 2 true, .step 2 0 true, .step 0 1 true, .step 0 0 true, .step 0 2 true, .step 0 0 true,
    .step 0 1 true, .step 0 2 true, .step 0 2 true, .step 0 1 true, .step 0 0 true, .step 0 2 true, .step 0 0 true, .step 0 2 true, .step 0 2 true,
    .step 0 0 true, .fire, .step 0 0 true, .step 0 3 true, .step 0 0 true, .step 0 2 true, .step 0 2 true, .step 0 0 true]).map (fun s => (s.ths.map (·.pc), s.fd, s.acc, s.out)) = some ([.idle, .idle, .idle], 0, [6, 5], [6, 5]) := by
  decide +kernel

/-- Blocks of one element: three blocks, of which the first is used again.  Here every access sees the latest value, and everything arrives in order. -/
example : (run 1 (init 2) [
    .call 1 5, .step 1 0 true, .step 1 0 true, .step 1 0 true, .step 1 0 true, .step 1 0 true, .step 1 0 true, .step 1 0 true, .step 1 1 true, .step 1 1 true,
    .step 1 0 true, .step 1 0 true, .call 2 6, .step 2 0 true, .step 2 2 true, .step 2 2 true, .step 2 0 true, .step 2 1 true, .step 2 0 true, .step 2 0 true,
    .step 2 1 true, .step 2 1 true, .step 2 1 true, .step 2 0 true, .step 2 1 true, .step 2 1 true, .step 2 3 true, .step 2 1 true, .step 2 0 true, .step 2 0 true,
    .step 2 1 true, .step 2 1 true, .step 2 1 true, .step 2 0 true, .step 2 1 true, .step 2 1 true, .step 2 1 true, .call 1 7, .step 1 1 true, .step 1 2 true,
    .step 1 2 true, .step 1 1 true, .step 1 2 true, .step 1 1 true, .step 1 0 true, .step 1 1 true, .step 1 1 true, .step 1 1 true, .step 1 1 true, .step 1 2 true,
    .step 1 1 true, .step 1 3 true, .step 1 2 true, .step 1 0 true, .step 1 0 true, .step 1 1 true, .step 1 1 true, .step 1 1 true, .step 1 0 true, .step 1 1 true,
    .step 1 1 true, .step 1 2 true, .fire, .step 0 0 true, .step 0 3 true, .step 0 0 true, .step 0 0 true, .step 0 1 true, .step 0 1 true, .step 0 1 true, .step 0 0 true,
    .step 0 2 true, .step 0 0 true, .step 0 1 true, .step 0 1 true, .step 0 1 true, .step 0 1 true, .step 0 1 true, .step 0 4 true, .step 0 0 true, .step 0 1 true,
    .step 0 0 true, .step 0 6 true, .step 0 1 true, .step 0 1 true, .step 0 2 true, .step 0 2 true, .step 0 1 true, .step 0 0 true, .step 0 2 true, .step 0 1 true,
    .step 0 2 true, .step 0 2 true, .step 0 2 true, .step 0 2 true, .step 0 2 true, .step 0 4 true, .step 0 1 true, .step 0 1 true, .step 0 1 true, .step 0 6 true,
    .step 0 2 true, .step 0 1 true, .step 0 2 true, .step 0 2 true, .step 0 1 true, .step 0 0 true, .step 0 2 true, .step 0 2 true, .step 0 2 true, .step 0 2 true,
    .step 0 1 true, .call 2 8, .step 2 2 true, .step 2 2 true, .step 2 2 true, .step 2 1 true, .step 2 2 true, .step 2 1 true, .step 2 2 true, .step 2 6 true,
    .step 2 6 true, .step 2 1 true, .step 2 2 true, .step 2 7 true, .step 2 3 true, .step 2 3 true, .step 2 3 true, .step 2 1 true, .step 2 3 true, .step 2 3 true,
    .step 2 3 true, .step 2 3 true, .step 2 8 true, .step 2 8 true, .step 2 3 true, .step 2 3 true, .step 2 3 true, .step 2 0 true, .step 2 3 true, .step 2 9 true,
    .step 2 4 true, .step 2 0 true, .fire, .step 0 0 true, .step 0 5 true, .step 0 2 true, .step 0 2 true, .step 0 2 true, .step 0 2 true, .step 0 3 true, .step 0 2 true,
    .step 0 4 true, .step 0 3 true, .step 0 1 true, .step 0 3 true, .step 0 6 true, .step 0 3 true, .step 0 3 true, .step 0 4 true, .step 0 4 true, .step 0 3 true,
    .step 0 0 true, .step 0 4 true, .step 0 3 true, .step 0 4 true, .step 0 4 true, .step 0 3 true]).map (fun s => (s.ths.map (·.pc), s.fd, s.acc, s.out, s.nblk)) = some ([.idle, .idle, .idle], 0, [5, 6, 7, 8], [5, 6, 7, 8], 3) := by
  decide +kernel

/-- The memory itself, on the litmus tests that tell the orders apart.  Message passing: `true` is written, then `false` as a flag; a reader that has seen the flag
may read the old value of `true` unless the flag is written with release and read with acquire. -/
def Weak.passing (w r : Order) (t : Nat) : Option Nat :=
  (Weak.store (fun _ => 0) [] ([] : View Bool) .rlx true 1 42).bind fun (m, v) =>
  (Weak.store (fun _ => 0) m v w false 1 1).bind fun (m, _) =>
  (Weak.load (fun _ => 0) m ([] : View Bool) r false 1).bind fun (_, v) =>
  (Weak.load (fun _ => 0) m v .rlx true t).map (·.1)

example : ∀ w r, Weak.passing w r 1 = some 42 ∧ (Weak.passing w r 0 = none ↔ w.releases = true ∧ r.acquires = true) := by
  intro w r; cases w <;> cases r <;> decide

example : [Weak.Order.rlx, .acq, .rel, .acqRel].map (fun o => (o.acquires, o.releases)) = [(false, false), (true, false), (false, true), (true, true)] := by decide

/-- The same with a read-modify-write of another thread between the flag and its reader: a release sequence carries on whatever its order. -/
def Weak.passingRmw (w u r : Order) (t : Nat) : Option Nat :=
  (Weak.store (fun _ => 0) [] ([] : View Bool) .rlx true 1 42).bind fun (m, v) =>
  (Weak.store (fun _ => 0) m v w false 1 1).bind fun (m, _) =>
  (Weak.rmw (fun _ => 0) m ([] : View Bool) u false 1 (· + 1)).bind fun (_, m, _) =>
  (Weak.load (fun _ => 0) m ([] : View Bool) r false 2).bind fun (_, v) =>
  (Weak.load (fun _ => 0) m v .rlx true t).map (·.1)

example : ∀ w u r, Weak.passingRmw w u r 1 = some 42 ∧ (Weak.passingRmw w u r 0 = none ↔ w.releases = true ∧ r.acquires = true) := by
  intro w u r; cases w <;> cases u <;> cases r <;> decide

/-- Coherence: whoever has written with a read-modify-write, or read what it wrote, does not read anything older of the same location; the next one must read what the last one wrote. -/
def Weak.coherent (u : Order) (t : Nat) : Option (Nat × Nat) :=
  (Weak.rmw (fun _ => 7) [] ([] : View Bool) u false 0 (· + 1)).bind fun (x, m, v) =>
  (Weak.load (fun _ => 7) m v .rlx false t).map (fun y => (x, y.1))

example : ∀ u, Weak.coherent u 0 = none ∧ Weak.coherent u 1 = some (7, 8) := by intro u; cases u <;> decide

def Weak.atomic (u : Order) (t : Nat) : Option Nat :=
  (Weak.rmw (fun _ => 7) [] ([] : View Bool) u false 0 (· + 1)).bind fun (_, m, _) =>
  (Weak.rmw (fun _ => 7) m ([] : View Bool) u false t (· + 1)).map (·.1)

example : ∀ u, Weak.atomic u 0 = none ∧ Weak.atomic u 1 = some 8 := by intro u; cases u <;> decide

/-- A read-modify-write with release passes on what its own thread has seen, with acquire it takes over what it reads. -/
def Weak.passingBy (u r : Order) (t : Nat) : Option Nat :=
  (Weak.store (fun _ => 0) [] ([] : View Bool) .rlx true 1 42).bind fun (m, v) =>
  (Weak.rmw (fun _ => 0) m v u false 0 (· + 1)).bind fun (_, m, _) =>
  (Weak.rmw (fun _ => 0) m ([] : View Bool) r false 1 (· + 1)).bind fun (_, m, v) =>
  (Weak.load (fun _ => 0) m v .rlx true t).map (·.1)

example : ∀ u r, Weak.passingBy u r 1 = some 42 ∧ (Weak.passingBy u r 0 = none ↔ u.releases = true ∧ r.acquires = true) := by
  intro u r; cases u <;> cases r <;> decide

end Salticidae
