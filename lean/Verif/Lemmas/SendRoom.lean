import Verif.Props.QueueProg
import Verif.Model.SendRoom
/-!
C123: one thread enqueues into a queue that has only its first block.
-/
namespace Salticidae
namespace Queue
open Spec.Queue
open FreeList (upd)

/-- A queue with one block, of which `k` slots are used, that only thread 0 has used. -/
structure One (k : Nat) (s : St Nat) : Prop where
  qtail : s.qtail = 0
  tail : (s.blk 0).tail = k
  next : (s.blk 0).next = none
  cnt : (s.fl.node 0).refcnt = 1
  freed : (s.fl.node 0).freed = false
  top : s.fl.top = none
  held : s.fl.held 0 = []
  fl : ∃ r, s.fl.pc 0 = .ret r
  pc : ∃ x, s.pc 0 = .idle x
  others : ∀ j, j ≠ 0 → s.pc j = .idle .none

theorem one_init : One 0 (init Nat) := ⟨rfl, rfl, rfl, rfl, rfl, rfl, rfl, ⟨_, rfl⟩, ⟨_, rfl⟩, fun _ _ => rfl⟩

theorem one_enq {B k : Nat} {s : St Nat} (h : One k s) (hk : k < B) (e : Nat) :
    ∃ s', run B s (.start 0 (.enq e false) :: goN 0 11) = some s' ∧ One (k + 1) s' ∧
      s'.log = s.log ++ [.call 0 (.enq e false), .enq 0 e, .ret 0 .yes] := by
  obtain ⟨h1, h2, h3, h4, h5, h6, h7, ⟨r, h8⟩, ⟨x, h9⟩, h10⟩ := h
  have hk' : ¬ B ≤ k := by omega
  suffices hx : ∃ s', run B s (.start 0 (.enq e false) :: goN 0 11) = some s' ∧ (One (k + 1) s' ∧
      s'.log = s.log ++ [.call 0 (.enq e false), .enq 0 e, .ret 0 .yes]) from hx
  simp [goN, List.replicate, run, step, h9, h8, St.rcd, St.setPc, start, localStep, upd, enqStep, St.call, FreeList.call, FreeList.St.setPc, h1,
      FreeList.micro, h4, afterMicro, h5, h2, hk', FreeList.St.setCnt, FreeList.St.addHolder, h7, St.setBlk, FreeList.release, FreeList.St.delHolder, FreeList.K.pc, St.ret]
  refine ⟨?_, ?_, ?_, ?_, ?_, ?_, ?_, ?_, ?_, ?_⟩
  all_goals simp [upd, h3, h6]
  intro j hj
  simp [hj, h10 j hj]

theorem one_full {B : Nat} {s : St Nat} (h : One B s) (e : Nat) :
    ∃ s', run B s (.start 0 (.enq e false) :: goN 0 10) = some s' ∧
      s'.log = s.log ++ [.call 0 (.enq e false), .refuse 0, .ret 0 .no] := by
  obtain ⟨h1, h2, h3, h4, h5, h6, h7, ⟨r, h8⟩, ⟨x, h9⟩, h10⟩ := h
  simp [goN, List.replicate, run, step, h9, h8, St.rcd, St.setPc, start, localStep, upd, enqStep, St.call, FreeList.call, FreeList.St.setPc, h1,
      FreeList.micro, h4, afterMicro, h5, h2, h3, h6, FreeList.St.setCnt, FreeList.St.addHolder, h7, St.setBlk, FreeList.release, FreeList.St.delHolder, FreeList.K.pc, St.ret]

/-- k elements are enqueued by thread 0. -/
def fill1 : Nat → List (Act Nat)
  | 0 => []
  | k + 1 => fill1 k ++ (.start 0 (.enq k false) :: goN 0 11)

/-- What is recorded of it. -/
def fill1Log : Nat → List (Ev Nat)
  | 0 => []
  | k + 1 => fill1Log k ++ [.call 0 (.enq k false), .enq 0 k, .ret 0 .yes]

theorem fill1_run {B : Nat} : ∀ {k : Nat}, k ≤ B → ∃ s, run B (init Nat) (fill1 k) = some s ∧ One k s ∧ s.log = fill1Log k
  | 0, _ => ⟨_, rfl, one_init, rfl⟩
  | k + 1, hk => by
    obtain ⟨s, h1, h2, h3⟩ := fill1_run (B := B) (k := k) (by omega)
    obtain ⟨t, g1, g2, g3⟩ := one_enq (B := B) h2 (by omega) k
    exact ⟨t, by rw [fill1, run_app h1, g1], g2, by rw [g3, h3, fill1Log]⟩

theorem one_idle {k : Nat} {s : St Nat} (h : One k s) (j : Nat) : Idle s j := by
  by_cases hj : j = 0
  · subst hj; exact h.pc
  · exact ⟨_, h.others j hj⟩

theorem goN_turn {α : Type} {B i : Nat} : ∀ (n : Nat) (s : St α), ∀ p ∈ trace B s (goN i n), turnAt p.1 p.2
  | 0, s, p, hp => by cases hp
  | n + 1, s, p, hp => by
    simp only [goN, List.replicate_succ, trace, List.mem_cons] at hp
    rcases hp with rfl | hp
    · trivial
    · cases h : step B s (.go i true) with
      | none => rw [h] at hp; cases hp
      | some s' => rw [h] at hp; exact goN_turn n s' p hp

theorem op_turn {B k n : Nat} {s : St Nat} (h : One k s) (c : Call Nat) : ∀ p ∈ trace B s (.start 0 c :: goN 0 n), turnAt p.1 p.2 := by
  intro p hp
  simp only [trace, List.mem_cons] at hp
  rcases hp with rfl | hp
  · exact one_idle h
  · cases hs : step B s (.start 0 c) with
    | none => rw [hs] at hp; cases hp
    | some s' => rw [hs] at hp; exact goN_turn n s' p hp

theorem fill1_turn {B : Nat} : ∀ {k : Nat}, k ≤ B → InTurn B (fill1 k)
  | 0, _ => fun p hp => by cases hp
  | k + 1, hk => by
    obtain ⟨s, h1, h2, h3⟩ := fill1_run (B := B) (k := k) (by omega)
    intro p hp
    rw [fill1, trace_app h1, List.mem_append] at hp
    rcases hp with hp | hp
    · exact fill1_turn (by omega) p hp
    · exact op_turn h2 _ p hp

theorem fill1_acts {k : Nat} : ∀ a ∈ fill1 k, (∃ e, a = .start 0 (.enq e false)) ∨ a = .go 0 true := by
  induction k with
  | zero => intro a h; cases h
  | succ k ih =>
    intro a h
    simp only [fill1, goN, List.mem_append, List.mem_cons, List.mem_replicate] at h
    rcases h with h | h | h
    · exact ih a h
    · exact .inl ⟨_, h⟩
    · exact .inr h.2

theorem fill1_threads {k : Nat} : ∀ e ∈ fill1Log k, threadOf e = 0 := by
  induction k with
  | zero => intro a h; cases h
  | succ k ih =>
    intro a h
    simp only [fill1Log, List.mem_append, List.mem_cons, List.not_mem_nil, or_false] at h
    rcases h with h | rfl | rfl | rfl
    · exact ih a h
    all_goals rfl

theorem fill1_blocks {k : Nat} : blocks (fill1Log k) = 0 := by
  induction k with
  | zero => rfl
  | succ k ih => simpa [fill1Log, blocks, isAdd] using ih

theorem acceptedIn_pairs (n : Nat) (l : List (Ev Nat)) :
    acceptedIn ((List.range n).flatMap (fun k => [Ev.call 0 (.enq k false), .ret 0 .yes]) ++ l) = List.range n ++ acceptedIn l := by
  induction n generalizing l with
  | zero => rfl
  | succ n ih => simp [List.range_succ, ih, acceptedIn]

theorem fill1_seen (k : Nat) : observed (fill1Log k) = (List.range k).flatMap (fun k => [Ev.call 0 (.enq k false), .ret 0 .yes]) := by
  induction k with
  | zero => rfl
  | succ k ih => simp only [fill1Log, observed, List.filter_append] at ih ⊢; rw [ih]; simp [List.range_succ]

theorem fill1_mine (k : Nat) : ofThread 0 (fill1Log k) = (List.range k).flatMap (fun k => [Ev.call 0 (.enq k false), .ret 0 .yes]) := by
  induction k with
  | zero => rfl
  | succ k ih => simp only [fill1Log, ofThread, List.filter_append] at ih ⊢; rw [ih]; simp [List.range_succ]

theorem fill1_accepted (k : Nat) : accepted 0 (fill1Log k) = List.range k := by
  have := acceptedIn_pairs k []
  rw [List.append_nil] at this
  rw [accepted, fill1_mine, this]; simp [acceptedIn]

end Queue
end Salticidae
