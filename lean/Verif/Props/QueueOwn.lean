import Verif.Spec.QueueOwn
import Verif.Lemmas.QueueOwn
import Verif.Props.QueueGone
/-!
C128.
-/
namespace Salticidae
open Queue Spec.QueueGone Spec.QueueOwn

/-- Every element that is enqueued is handed to one consumer, or destroyed with the queue. -/
def C128_statement : Prop :=
  ∀ (α : Type) [DecidableEq α] (B : Nat) (m : Mode) (acts : List (Act α)) (s : Queue.St α), 0 < B → (∀ a ∈ acts, a.allowed m) → run B (init α) acts = some s → Kept B acts s

theorem lateClear2_lost : (QueueOwn.run 1 (init Nat) .init lateClear2).lost = [9] := by decide +kernel

/-- A producer that clears the mark of a block late: the element of an enqueue that returned true is overwritten, without being destroyed. -/
theorem C128_violated : ¬ C128_statement := by
  intro h
  obtain ⟨s, hs, _⟩ := Option.map_eq_some_iff.mp lateClear2_end
  have := (h Nat 1 (.single 0) lateClear2 s (by omega) lateClear2_allowed hs).1
  rw [lateClear2_lost] at this
  cases this

/-- It is, if no block is given back while the producer that linked it in an unbounded enqueue is still about to clear its mark (and, with several consumers, a consumer's reference is to the block that is then the
head); … -/
theorem C128_timely_partial {α : Type} [DecidableEq α] {B : Nat} {m : Mode} {acts : List (Act α)} {s : Queue.St α} (hB : 0 < B) (ha : ∀ a ∈ acts, a.allowed m) (ht : Timely B acts)
    (hf : m = .multi → Fresh B acts) (h : run B (init α) acts = some s) : Kept B acts s := by
  obtain ⟨k, ki⟩ := inv_run hB (inv_init B m) idle_init h ha ht hf
  have ok := QueueOwn.ok_run hB (inv_init B m) idle_init QueueOwn.ok_init h ha ht hf
  refine ⟨ok.lost, ok.full, fun hi i chs he => ?_⟩
  obtain ⟨h1, h2⟩ := (C127_timely_partial hB ha ht hf h hi i chs).2.1 he
  exact QueueOwn.destroyed_perm k ok hi h1 h2

/-- … so it is when every enqueue is bounded, … -/
theorem C128_bounded_partial {α : Type} [DecidableEq α] {B c : Nat} {acts : List (Act α)} {s : Queue.St α} (hB : 0 < B) (ha : ∀ a ∈ acts, a.allowed (.single c))
    (hb : ∀ a ∈ acts, ∀ i e, a ≠ .start i (.enq e true)) (h : run B (init α) acts = some s) : Kept B acts s :=
  C128_timely_partial hB ha (timely_bounded (fun _ => rfl) hb) (fun e => by cases e) h

/-- … and when there is one producer. -/
theorem C128_single_producer_partial {α : Type} [DecidableEq α] {B c p : Nat} {acts : List (Act α)} {s : Queue.St α} (hB : 0 < B) (ha : ∀ a ∈ acts, a.allowed (.single c))
    (hp : ∀ a ∈ acts, ∀ i e u, a = .start i (.enq e u) → i = p) (h : run B (init α) acts = some s) : Kept B acts s :=
  C128_timely_partial hB ha (timely_sole hB (inv_init B (.single c)) idle_init (sole_init p) ha (fun e => by cases e) hp) (fun e => by cases e) h

/-- Three elements, two taken, one put back: two are destroyed. -/
def ownRun : List (Act Nat) := inTurn 2 (init Nat) [(1, .enq 1 true), (1, .enq 2 true), (1, .enq 3 true), (0, .deq), (0, .deq), (0, .rewind 7)]

example : ∃ s, run 2 (init Nat) ownRun = some s ∧ Kept 2 ownRun s ∧ (QueueGone.run 0 (QueueGone.start s) (List.replicate 30 true)).pc = .ended ∧
    (QueueOwn.run 2 (init Nat) .init ownRun).destroyed 2 (QueueGone.run 0 (QueueGone.start s) (List.replicate 30 true)).gone = [3, 7] := by
  have e : (run 2 (init Nat) ownRun).map (fun s => ((QueueGone.run 0 (QueueGone.start s) (List.replicate 30 true)).pc, (QueueOwn.run 2 (init Nat) .init ownRun).destroyed 2 (QueueGone.run 0 (QueueGone.start s) (List.replicate 30 true)).gone)) =
    some (.ended, [3, 7]) := by decide +kernel
  obtain ⟨s, h, hl⟩ := Option.map_eq_some_iff.mp e
  simp only [Prod.mk.injEq] at hl
  refine ⟨s, h, C128_single_producer_partial (c := 0) (p := 1) (by omega) (by decide +kernel) ?_ h, hl.1, hl.2⟩
  have : ∀ a ∈ ownRun, (match a with | .start i (.enq _ _) => i == 1 | _ => true) = true := by decide +kernel
  intro a ha i x u hx
  subst hx
  simpa using this _ ha

end Salticidae
