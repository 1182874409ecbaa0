import Verif.Lemmas.SyncCall
namespace Salticidae
open SyncCall Spec.SyncCall

/-! ## C90: a synchronous call -/

/-- For every callback and every schedule of the two threads, with any number of spurious wake-ups: no destroyed object or freed result is ever
used; as long as the call is not over, one of the threads can go on; and when it is over, the caller has had the result of the callback and
every result has been freed. -/
def C90_statement : Prop := ∀ (cb : Callback) (as : List Act),
  run (init cb) as ≠ .ub ∧
  ∀ s, run (init cb) as = .ok s →
    (Finished s → s.got = some (result cb) ∧ s.heap = [] ∧ s.handle = none) ∧
    (¬ Finished s → ∃ w t, step s (.step w) = .ok t)

/-- Not if the callback calls `return_sync()`, which is public: the caller goes on, its notifier is gone when the handler notifies it
again. -/
theorem C90_violated : ¬ C90_statement := by
  intro h
  have := (h ⟨[.set 7, .sync], none⟩ [.step .caller, .step .caller, .step .runner, .step .runner, .step .runner, .step .runner, .step .runner,
    .step .runner, .step .caller, .step .caller, .step .caller, .step .caller, .step .caller, .step .runner]).1
  revert this; decide

/-- The full statement for callbacks that leave `return_sync()` to the library. -/
theorem C90_call_partial (cb : Callback) (hcb : ∀ o ∈ cb.ops, o ≠ .sync) (as : List Act) :
    run (init cb) as ≠ .ub ∧
    ∀ s, run (init cb) as = .ok s →
      (Finished s → s.got = some (result cb) ∧ s.heap = [] ∧ s.handle = none) ∧
      (¬ Finished s → ∃ w t, step s (.step w) = .ok t) :=
  have h := inv_run as _ (inv_init cb hcb)
  ⟨h.1, fun s hs => inv_live (h.2 s hs)⟩

/-- The call ends: however the threads are scheduled, the number of their steps is bounded, but for the two steps that each spurious wake-up may add. -/
theorem C90_ends (cb : Callback) (as : List Act) (s : St) (h : run (init cb) as = .ok s) :
    (as.filter (· ≠ .wake)).length < 3 * (code cb).length + 10 + 2 * as.count .wake := by
  have h1 := work_run as _ _ h
  have h2 : work (init cb) = 3 * (code cb).length + 10 := rfl
  have h3 : 0 < work s := by unfold work; split <;> omega
  omega

/-- A whole call, with a callback that sets two results and a spurious wake-up. -/
example : ∃ s, run (init ⟨[.set 7, .set 8], none⟩)
    ([.step .caller, .step .caller, .step .runner, .wake, .step .caller, .step .caller, .step .runner] ++
      List.replicate 6 (.step .runner) ++ List.replicate 7 (.step .caller)) = .ok s ∧
    Finished s ∧ s.got = some (.value (some 8)) := ⟨_, rfl, ⟨rfl, rfl⟩, rfl⟩

/-- A callback that sets a result and then throws. -/
example : ∃ s, run (init ⟨[.set 7], some 3⟩)
    ([.step .caller, .step .caller] ++ List.replicate 8 (.step .runner) ++ List.replicate 7 (.step .caller)) = .ok s ∧
    Finished s ∧ s.got = some (.error 3) := ⟨_, rfl, ⟨rfl, rfl⟩, rfl⟩

end Salticidae
