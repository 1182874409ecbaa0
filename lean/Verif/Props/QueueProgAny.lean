import Verif.Props.QueueAny
import Verif.Props.QueueProg
/-!
The violations of C105, for every block size.
-/
namespace Salticidae
open Queue Spec.Queue

namespace Queue
open FreeList (upd Node)

variable {α : Type}

/-- As `drainM_at`, with what becomes of the marks. -/
theorem drainM_marks {B i b c : Nat} {e : α} {nx : Option Nat} {fd : Bool} : ∀ (n : Nat) {r : R α} {x : Ret α}, r.pc i = .idle x → r.fpc i = .ret .none → r.qhead = b → r.node b = ⟨nx, c + 1, fd⟩ →
    (r.blk b).head + n ≤ (r.blk b).tail → (∀ k, (r.blk b).head ≤ k → k < (r.blk b).head + n → (r.blk b).elem k = some e ∧ (r.blk b).avail k = true) →
    ∃ A y, rrun B r (drainM i n) = some { r with
      blk := upd r.blk b { r.blk b with head := (r.blk b).head + n, avail := A }
      pc := upd r.pc i (.idle y)
      log := r.log ++ drainMLog i e n } ∧
      (∀ k, k < (r.blk b).head → A k = (r.blk b).avail k) ∧ (∀ k, (r.blk b).head ≤ k → k < (r.blk b).head + n → A k = false)
  | 0, r, x, h1, h2, h3, h0, h4, h5 => by
    refine ⟨(r.blk b).avail, x, ?_, fun k _ => rfl, fun k _ _ => by omega⟩
    simp [drainM, rrun, drainMLog, upd_id r.blk, upd_id r.pc i _ h1]
  | n + 1, r, x, h1, h2, h3, h0, h4, h5 => by
    obtain ⟨he, ha⟩ := h5 (r.blk b).head (by omega) (by omega)
    have hf := deqM_at (B := B) (r := { r with pc := upd r.pc i (start .deqM), log := r.log ++ [.call i .deqM] }) (i := i) (by simp [start]) h2 h3 h0 (by simp only; omega) ha
    have hr : upd r.fpc i (.ret .none) = r.fpc := upd_id _ _ _ h2
    simp only [upd_upd, he, hr] at hf
    obtain ⟨A, y, g1, g2, g3⟩ := drainM_marks (B := B) (i := i) (b := b) (e := e) (c := c) (nx := nx) (fd := fd) n (x := .val (some e))
      (r := { r with
        blk := upd r.blk b { r.blk b with head := (r.blk b).head + 1, avail := upd (r.blk b).avail (r.blk b).head false }
        pc := upd r.pc i (.idle (.val (some e)))
        log := r.log ++ [.call i .deqM] ++ [.take i, .ret i (.val (some e))] }) (by simp) h2 h3 h0 (by simp; omega) (by
          intro k k1 k2
          simp only [upd_same] at k1 k2 ⊢
          have : k ≠ (r.blk b).head := by omega
          simp only [upd, this, if_false]
          exact h5 k (by omega) (by omega))
    simp only [upd_same, upd_upd] at g1 g2 g3
    refine ⟨A, y, ?_, ?_, ?_⟩
    · rw [drainM, List.cons_append, start_at h1, rrun_append hf, g1]
      simp [drainMLog, Nat.add_assoc, Nat.add_comm 1]
    · intro k hk
      rw [g2 k (by omega)]
      have : k ≠ (r.blk b).head := by omega
      simp [upd, this]
    · intro k hk hk'
      by_cases h : k = (r.blk b).head
      · subst h; rw [g2 _ (by omega)]; simp
      · exact g3 k (by omega) (by omega)

theorem drainM_then' {B i b n c : Nat} {e : α} {nx : Option Nat} {fd : Bool} {r : R α} {x : Ret α} {as : List (Act α)} {Q : R α → Prop}
    (h1 : r.pc i = .idle x) (h2 : r.fpc i = .ret .none) (h3 : r.qhead = b) (h0 : r.node b = ⟨nx, c + 1, fd⟩)
    (h4 : (r.blk b).head + n ≤ (r.blk b).tail) (h5 : ∀ k, (r.blk b).head ≤ k → k < (r.blk b).head + n → (r.blk b).elem k = some e ∧ (r.blk b).avail k = true)
    (h : ∀ A y, (∀ k, (r.blk b).head ≤ k → k < (r.blk b).head + n → A k = false) →
      Ends (rrun B { r with
        blk := upd r.blk b { r.blk b with head := (r.blk b).head + n, avail := A }
        pc := upd r.pc i (.idle y)
        log := r.log ++ drainMLog i e n } as) Q) : Ends (rrun B r (drainM i n ++ as)) Q := by
  obtain ⟨A, y, a, _, b⟩ := drainM_marks n h1 h2 h3 h0 h4 h5
  rw [rrun_append a]
  exact h A y b

/-- `deadSlot`, where blocks have m + 1 elements. -/
def deadSlotAny (m : Nat) : List (Act Nat) :=
  [fill 3 1 true (m + 1), .start 3 (.enq 1 true) :: goes 3 28, fill 3 1 true m, .start 1 .deqM :: goes 1 1, drainM 2 (m + 1), .start 2 .deqM :: goes 2 28, goes 1 2,
   .start 3 (.enq 3 true) :: goes 3 14, .start 4 (.enq 4 true) :: goes 4 28, fill 4 4 true m, goes 1 3, goes 3 36].flatten

theorem deadSlotAny_end (m : Nat) : Ends (rrun (m + 1) (real (init Nat)) (deadSlotAny m)) (fun r =>
    r.pc 1 = .m7 0 0 ∧ r.fpc 1 = .ret .ok ∧ (r.blk 0).avail 0 = false ∧ ∀ j, j ≠ 1 → ∃ x, r.pc j = .idle x) := by
  rw [real_init]
  simp only [deadSlotAny, List.flatten_cons, List.flatten_nil, List.append_nil]
  refine fill_then rfl rfl rfl rfl (by simp) ?_
  intro E0 A0 y s0 _
  clean at s0 ⊢
  exec [goes]
  refine fill_then rfl rfl rfl rfl (by simp; omega) ?_
  intro E1 A1 y s1 t1
  clean at s1 t1 ⊢
  exec [goes]
  refine drainM_then' (e := 1) rfl rfl rfl rfl (by simp) (fun k _ h => s0 k (by simpa using h)) ?_
  intro A0' y a0
  clean at a0 ⊢
  have a00 := a0 0 (by omega)
  have e : 1 + m = m + 1 := Nat.add_comm 1 m
  obtain ⟨u1, u2⟩ := t1 0 (by omega)
  simp only [upd_same] at u1 u2
  exec [goes, u1, u2, e]
  refine fill_then rfl rfl rfl rfl (by simp; omega) ?_
  intro E2 A2 y s2 t2
  clean at s2 t2 ⊢
  exec [goes, e]
  refine ends_some ⟨rfl, rfl, a00, ?_⟩
  intro j hj
  match j, hj with
  | 0, _ => exact ⟨_, rfl⟩
  | 2, _ => exact ⟨_, rfl⟩
  | 3, _ => exact ⟨_, rfl⟩
  | 4, _ => exact ⟨_, rfl⟩
  | j + 5, _ => exact ⟨_, rfl⟩

/-- `deadTail`, where blocks have m + 1 elements. -/
def deadTailAny (m : Nat) : List (Act Nat) :=
  [fill 1 1 true (m + 1), .start 2 (.enq 2 true) :: goes 2 13, .start 3 (.enq 9 true) :: goes 3 1, fill 1 1 true (m + 1), drain 0 (m + 1), .start 0 .deq :: goes 0 15, drain 0 m,
   .start 1 (.enq 1 true) :: goes 1 28, fill 1 1 true m, .start 0 .deq :: goes 0 19, drain 0 m, goes 2 41, fill 2 1 true m, .start 4 (.enq 5 true) :: goes 4 14, goes 3 4, goes 4 2, goes 3 8, goes 4 17,
   fill 4 1 true m, goes 3 4].flatten

theorem deadTailAny_end (m : Nat) : Ends (rrun (m + 1) (real (init Nat)) (deadTailAny m)) (fun r =>
    r.pc 3 = .e1 9 true ∧ r.fpc 3 = .ret .none ∧ (r.blk r.qtail).tail = m + 1 ∧ (r.blk r.qtail).next ≠ none ∧ (r.node r.qtail).freed = false ∧ 1 ≤ (r.node r.qtail).refcnt ∧
      ∀ j, j ≠ 3 → ∃ x, r.pc j = .idle x) := by
  rw [real_init]
  simp only [deadTailAny, List.flatten_cons, List.flatten_nil, List.append_nil]
  have e : 1 + m = m + 1 := Nat.add_comm 1 m
  refine fill_then rfl rfl rfl rfl (by simp) ?_
  intro E0 A0 y s0 _
  clean at s0 ⊢
  exec [goes]
  refine fill_then rfl rfl rfl rfl (by simp) ?_
  intro E1 A1 y s1 _
  clean at s1 ⊢
  refine drain_then (e := 1) rfl rfl rfl (by simp) (fun k _ h => s0 k (by simpa using h)) ?_
  intro A0' y _
  clean
  exec [goes, (s1 0 (by omega)).1, (s1 0 (by omega)).2]
  refine drain_then (e := 1) rfl rfl rfl (by simp; omega) (fun k h h' => ?_) ?_
  · clean at h h' ⊢
    rw [upd_ne (by omega)]
    exact s1 k (by omega)
  intro A1' y _
  clean
  exec [goes, e]
  refine fill_then rfl rfl rfl rfl (by simp; omega) ?_
  intro E2 A2 y s2 t2
  clean at s2 t2 ⊢
  obtain ⟨u1, u2⟩ := t2 0 (by omega)
  simp only [upd_same] at u1 u2
  exec [goes, u1, u2, e]
  refine drain_then (e := 1) rfl rfl rfl (by simp; omega) (fun k h h' => ?_) ?_
  · clean at h h' ⊢
    rw [upd_ne (by omega)]
    exact s2 k (by omega) (by omega)
  intro A2' y _
  clean
  exec [goes, e]
  refine fill_then rfl rfl rfl rfl (by simp; omega) ?_
  intro E3 A3 y s3 t3
  clean at s3 t3 ⊢
  exec [goes, e]
  refine fill_then rfl rfl rfl rfl (by simp; omega) ?_
  intro E4 A4 y s4 t4
  clean at s4 t4 ⊢
  exec [goes, e]
  refine ends_some ⟨rfl, rfl, ?_, ?_, rfl, by simp, ?_⟩
  · simp
  · simp
  intro j hj
  match j, hj with
  | 0, _ => exact ⟨_, rfl⟩
  | 1, _ => exact ⟨_, rfl⟩
  | 2, _ => exact ⟨_, rfl⟩
  | 4, _ => exact ⟨_, rfl⟩
  | j + 5, _ => exact ⟨_, rfl⟩

theorem deadSlotAny_allowed (m : Nat) : ∀ a ∈ deadSlotAny m, a.allowed .multi := by
  unfold deadSlotAny
  allow

theorem deadTailAny_allowed (m : Nat) : ∀ a ∈ deadTailAny m, a.allowed (.single 0) := by
  unfold deadTailAny
  allow

/-- What a run without ghosts ends with is what the run ends with. -/
theorem run_of_real {B : Nat} {as : List (Act α)} {Q : R α → Prop} (h : Ends (rrun B (real (init α)) as) Q) : ∃ s, run B (init α) as = some s ∧ Q (real s) := by
  obtain ⟨r, h1, h2⟩ := h
  rw [← real_run, Option.map_eq_some_iff] at h1
  obtain ⟨s, h3, rfl⟩ := h1
  exact ⟨s, h3, h2⟩

end Queue

/-- What C105 says of queues with blocks of B elements, used as `m` says. -/
def C105_statement_at (B : Nat) (m : Mode) : Prop :=
  ∀ (acts : List (Act Nat)) (s : Queue.St Nat) (i : Nat), (∀ a ∈ acts, a.allowed m) → run B (init Nat) acts = some s →
    (∀ j, j ≠ i → Idle s j) → ∃ n s', run B s (goN i n) = some s' ∧ Idle s' i

/-- It is false whatever the size of the blocks (in the code it is 4096), of the queue with many consumers, … -/
theorem C105_violated_any (B : Nat) (hB : 0 < B) : ¬ C105_statement_at B .multi := by
  intro h
  obtain ⟨m, rfl⟩ : ∃ m, B = m + 1 := ⟨B - 1, by omega⟩
  obtain ⟨s, hs, h1, h2, h3, h4⟩ := run_of_real (deadSlotAny_end m)
  obtain ⟨n, s', h5, x, h6⟩ := h _ s 1 (deadSlotAny_allowed m) hs h4
  have := run_goN (P := fun s => Waits s 1 0 0) (fun _ _ => waits_step) n ⟨h1, ⟨_, h2⟩, h3⟩ h5
  rw [this.1] at h6; cases h6

/-- … and of the queue with one. -/
theorem C105_violated_single_any (B : Nat) (hB : 0 < B) : ¬ ∀ c, C105_statement_at B (.single c) := by
  intro h
  obtain ⟨m, rfl⟩ : ∃ m, B = m + 1 := ⟨B - 1, by omega⟩
  obtain ⟨s, hs, h1, h2, h3, h4, h5, h6, h7⟩ := run_of_real (deadTailAny_end m)
  obtain ⟨n, s', h8, x, h9⟩ := h 0 _ s 3 (deadTailAny_allowed m) hs h7
  have := run_goN (P := fun s => Spins (m + 1) s 3) (fun _ _ => spins_step) n ⟨Nat.le_of_eq h3.symm, h4, h5, 9, true, .inl ⟨h1, ⟨_, h2⟩, h6⟩⟩ h8
  obtain ⟨_, _, _, e, u, h3⟩ := this
  simp [h9] at h3

end Salticidae
