import Verif.Model.ThreadCall
import Verif.Lemmas.EvQueue
namespace Salticidae
namespace TC

/-- What has been handed out, given what has been executed and what is still running. -/
def finished (s : St) : List (Call × Bool) := match s.cur with
  | none => s.executed
  | some _ => s.executed.dropLast

structure Inv (s : St) : Prop where
  ev : EvQ.Inv s.ev
  seen : s.executed.map (·.1) = s.ev.seen
  one : ∃ c, s.ev.cons = [c] ∧ (s.cur.isSome = true → c = .func)
  cur : ∀ x, s.cur = some x → s.executed.getLast? = some x
  del : s.delivered = (finished s).filterMap (fun x => if x.1.sync then some (x.1.id, result x.1 x.2) else none)

theorem inv_init : Inv init := ⟨EvQ.inv_init 1, rfl, ⟨.idle, rfl, by simp [init]⟩, by simp [init], rfl⟩

theorem inv_step {b : Nat} {s s' : St} {a : Act} (hi : Inv s) (h : step b s a = some s') (hd : a ≠ .destroy) : Inv s' := by
  obtain ⟨h1, h2, ⟨c, hc, hcf⟩, h4, h5⟩ := hi
  unfold step at h
  split at h
  · cases h
  have fin : ∀ (ev : EvQ.St Call) (n : Nat), finished { s with ev := ev, cnt := n } = finished s := fun _ _ => rfl
  cases a with
  | submit c' =>
    simp only at h
    rcases e : EvQ.step false s.ev (.call c') with _ | ev
    · rw [e] at h; cases h
    · rw [e] at h; cases h
      have e' := e
      simp only [EvQ.step] at e'; cases e'
      exact ⟨EvQ.inv_step h1 e, h2, ⟨c, hc, hcf⟩, h4, h5⟩
  | prod i =>
    simp only at h
    rcases e : EvQ.step false s.ev (.prod i) with _ | ev
    · rw [e] at h; cases h
    · rw [e] at h; cases h
      have e' := e
      simp only [EvQ.step] at e'
      split at e' <;> cases e'
      all_goals exact ⟨EvQ.inv_step h1 e, h2, ⟨c, hc, hcf⟩, h4, h5⟩
  | fire =>
    simp only at h
    rcases e : EvQ.step false s.ev (.fire 0) with _ | ev
    · rw [e] at h; cases h
    · rw [e] at h; cases h
      have e' := e
      simp only [EvQ.step] at e'
      split at e' <;> cases e'
      rename_i hf
      refine ⟨EvQ.inv_step h1 e, h2, ⟨.reset, by simp [hc], ?_⟩, h4, h5⟩
      intro hs
      have := hcf hs
      rw [hc, this] at hf; simp at hf
  | cb =>
    simp only at h
    rcases e : EvQ.step false s.ev (.cons 0) with _ | ev
    · rw [e] at h; cases h
    · rw [e] at h; cases h
      have e' := e
      simp only [EvQ.step, hc, List.getElem?_cons_zero] at e'
      have hn : s.cur.isSome = true → False := by
        intro hs; rw [hcf hs] at e'; simp at e'
      cases c <;> simp at e' <;> subst e'
      · exact ⟨EvQ.inv_step h1 e, h2, ⟨_, rfl, fun hs => (hn hs).elim⟩, h4, h5⟩
      · exact ⟨EvQ.inv_step h1 e, h2, ⟨_, rfl, fun hs => (hn hs).elim⟩, h4, h5⟩
      · exact ⟨EvQ.inv_step h1 e, h2, ⟨_, rfl, fun hs => (hn hs).elim⟩, h4, h5⟩
  | take =>
    simp only at h
    split at h
    · cases h
    rename_i hcur
    rcases hq : s.ev.q with _ | ⟨x, q⟩
    · rw [hq] at h; cases h
    · rw [hq] at h
      simp only at h
      rcases e : EvQ.step false s.ev (.deq 0) with _ | ev
      · rw [e] at h; cases h
      · rw [e] at h; cases h
        have e' := e
        simp only [EvQ.step, hc, List.getElem?_cons_zero, hq] at e'
        cases c <;> simp at e'
        subst e'
        have hnone : s.cur = none := by
          cases hs : s.cur with
          | none => rfl
          | some x => rw [hs] at hcur; simp at hcur
        refine ⟨EvQ.inv_step h1 e, by simp [h2], ⟨.func, rfl, fun _ => rfl⟩, by simp, ?_⟩
        simp only [finished, List.dropLast_concat]
        rw [h5]; simp [finished, hnone]
  | finish =>
    simp only at h
    rcases hcur : s.cur with _ | ⟨x, st⟩
    · rw [hcur] at h; cases h
    · rw [hcur] at h
      simp only at h
      have hf := hcf (by rw [hcur]; rfl)
      subst hf
      have hl := h4 _ hcur
      have hdel : s.delivered ++ (if x.sync then [(x.id, result x st)] else []) =
          s.executed.filterMap (fun x => if x.1.sync then some (x.1.id, result x.1 x.2) else none) := by
        have : s.executed = s.executed.dropLast ++ [(x, st)] := by
          obtain ⟨ys, hy⟩ := List.getLast?_eq_some_iff.1 hl
          rw [hy]; simp
        rw [this, List.filterMap_append, h5]
        simp only [finished, hcur]
        congr 1
        by_cases hx : x.sync <;> simp [hx]
      split at h
      · rcases e : EvQ.step false s.ev (.more 0) with _ | ev
        · rw [e] at h; cases h
        · rw [e] at h; cases h
          have e' := e
          simp only [EvQ.step, hc, List.getElem?_cons_zero] at e'
          cases e'
          exact ⟨EvQ.inv_step h1 e, h2, ⟨_, rfl, by simp⟩, by simp, hdel⟩
      · cases h
        exact ⟨h1, h2, ⟨_, hc, by simp⟩, by simp, hdel⟩
  | idle =>
    simp only at h
    split at h
    · cases h
    rename_i hcur
    rcases e : EvQ.step false s.ev (.empty 0) with _ | ev
    · rw [e] at h; cases h
    · rw [e] at h; cases h
      have e' := e
      simp only [EvQ.step, hc, List.getElem?_cons_zero] at e'
      split at e' <;> cases e'
      exact ⟨EvQ.inv_step h1 e, h2, ⟨_, rfl, fun hs => absurd hs hcur⟩, h4, h5⟩
  | stop =>
    cases h
    exact ⟨h1, h2, ⟨c, hc, hcf⟩, h4, h5⟩
  | destroy => exact absurd rfl hd

theorem inv_run {b : Nat} : ∀ (as : List Act) (s s' : St), Inv s → .destroy ∉ as → run b s as = some s' → Inv s' := by
  intro as
  induction as with
  | nil => intro s s' hi _ h; cases h; exact hi
  | cons a as ih =>
    intro s s' hi hd h
    simp only [run] at h
    rcases e : step b s a with _ | s1
    · rw [e] at h; cases h
    · rw [e] at h
      simp only [List.mem_cons, not_or] at hd
      exact ih s1 s' (inv_step hi e (fun h => hd.1 h.symm)) hd.2 h

/-- The destroyed flag stays down without `destroy`. -/
theorem dead_step {b : Nat} {s s' : St} {a : Act} (h : step b s a = some s') (hd : a ≠ .destroy) : s'.dead = false := by
  unfold step at h
  by_cases hs : s.dead = true
  · simp [hs] at h
  · rw [if_neg hs] at h
    have hs : s.dead = false := by simpa using hs
    cases a with
    | destroy => exact absurd rfl hd
    | stop => cases h; exact hs
    | finish =>
      simp only at h
      split at h
      · cases h
      · split at h
        · obtain ⟨ev, _, rfl⟩ := Option.map_eq_some_iff.1 h; exact hs
        · cases h; exact hs
    | take =>
      simp only at h
      split at h
      · cases h
      · split at h
        · cases h
        · obtain ⟨ev, _, rfl⟩ := Option.map_eq_some_iff.1 h; exact hs
    | idle =>
      simp only at h
      split at h
      · cases h
      · obtain ⟨ev, _, rfl⟩ := Option.map_eq_some_iff.1 h; exact hs
    | _ =>
      simp only at h
      obtain ⟨ev, _, rfl⟩ := Option.map_eq_some_iff.1 h; exact hs

theorem dead_run {b : Nat} : ∀ (as : List Act) (s s' : St), s.dead = false → .destroy ∉ as → run b s as = some s' → s'.dead = false := by
  intro as
  induction as with
  | nil => intro s s' hi _ h; cases h; exact hi
  | cons a as ih =>
    intro s s' hi hd h
    simp only [run] at h
    rcases e : step b s a with _ | s1
    · rw [e] at h; cases h
    · rw [e] at h
      simp only [List.mem_cons, not_or] at hd
      exact ih s1 s' (dead_step e (fun h => hd.1 h.symm)) hd.2 h

/-- At rest, the queue is empty and nothing is running. -/
theorem rest_empty {s : St} (hi : Inv s) (hd : s.dead = false) (hr : atRest s = true) : s.ev.q = [] ∧ s.cur = none := by
  simp only [atRest, hd, Bool.false_or, Bool.and_eq_true, beq_iff_eq] at hr
  obtain ⟨⟨hp, hc⟩, hf⟩ := hr
  have hnp : ∀ p, (∀ r, p ≠ .done r) → p ∉ s.ev.prods := by
    intro p hp' hm
    have := List.all_eq_true.1 hp p hm
    cases p <;> simp at this
    exact hp' _ rfl
  constructor
  · apply Classical.byContradiction
    intro hq
    rcases hi.ev.look hq with h | h | h | h | h | h
    · omega
    · exact hnp _ (by simp) h
    · exact hnp _ (by simp) h
    all_goals (rw [hc] at h; simp at h)
  · obtain ⟨c, h1, h2⟩ := hi.one
    rw [hc] at h1; cases h1
    cases hs : s.cur with
    | none => rfl
    | some x => have := h2 (by rw [hs]; rfl); cases this

/-- How much the event loop still has to do. -/
def work (s : St) : Nat := 12 * s.ev.q.length + (match s.ev.cons with
  | [.idle] => if 0 < s.ev.fd then 4 else 0
  | [.reset] => 3
  | [.exch] => 2
  | [.notify] => 5
  | _ => 1) + (if s.ev.cons = [.func] ∨ s.ev.cons = [.exch] then if 0 < s.ev.fd then 4 else 0 else 0) +
    (if s.cur.isSome then 6 else 0)

theorem work_step {b : Nat} {s s' : St} {a : Act} (hi : Inv s) (h : step b s a = some s')
    (hl : loopStep a = true) : work s' < work s := by
  obtain ⟨h1, h2, ⟨c, hc, hcf⟩, h4, h5⟩ := hi
  unfold step at h
  split at h
  · cases h
  cases a with
  | fire =>
    simp only at h
    obtain ⟨ev, e', rfl⟩ := Option.map_eq_some_iff.1 h
    simp only [EvQ.step, hc] at e'
    split at e' <;> cases e'
    rename_i hf
    simp at hf
    simp [work, hc, hf.1, hf.2]
  | cb =>
    simp only at h
    obtain ⟨ev, e', rfl⟩ := Option.map_eq_some_iff.1 h
    simp only [EvQ.step, hc, List.getElem?_cons_zero] at e'
    cases c <;> simp at e' <;> subst e'
    · simp [work, hc]
    · simp [work, hc]
    · simp [work, hc]
  | take =>
    simp only at h
    split at h
    · cases h
    rename_i hcur
    rcases hq : s.ev.q with _ | ⟨x, q⟩
    · rw [hq] at h; cases h
    · rw [hq] at h
      simp only at h
      obtain ⟨ev, e', rfl⟩ := Option.map_eq_some_iff.1 h
      simp only [EvQ.step, hc, List.getElem?_cons_zero, hq] at e'
      cases c <;> simp at e'
      subst e'
      simp [work, hc, hq]
      split <;> omega
  | finish =>
    simp only at h
    rcases hcur : s.cur with _ | ⟨x, st⟩
    · rw [hcur] at h; cases h
    · rw [hcur] at h
      simp only at h
      have hf := hcf (by rw [hcur]; rfl)
      subst hf
      split at h
      · obtain ⟨ev, e', rfl⟩ := Option.map_eq_some_iff.1 h
        simp only [EvQ.step, hc, List.getElem?_cons_zero] at e'
        cases e'
        simp [work, hc, hcur]
        omega
      · cases h
        simp [work, hc, hcur]
  | idle =>
    simp only at h
    split at h
    · cases h
    rename_i hcur
    obtain ⟨ev, e', rfl⟩ := Option.map_eq_some_iff.1 h
    simp only [EvQ.step, hc, List.getElem?_cons_zero] at e'
    split at e' <;> cases e'
    rename_i hcc _
    simp at hcc
    subst hcc
    simp [work, hc]
  | submit c => simp [loopStep] at hl
  | prod i => simp [loopStep] at hl
  | stop => simp [loopStep] at hl
  | destroy => simp [loopStep] at hl

theorem work_run {b : Nat} : ∀ (as : List Act) (s s' : St), Inv s → (∀ a ∈ as, loopStep a = true) →
    run b s as = some s' → as.length + work s' ≤ work s := by
  intro as
  induction as with
  | nil => intro s s' hi _ h; cases h; simp
  | cons a as ih =>
    intro s s' hi hl h
    simp only [run] at h
    rcases e : step b s a with _ | s1
    · rw [e] at h; cases h
    · rw [e] at h
      have ha := hl a (by simp)
      have h1 := work_step hi e ha
      have h2 := ih s1 s' (inv_step hi e (by intro hh; rw [hh] at ha; simp [loopStep] at ha))
        (fun x hx => hl x (List.mem_cons_of_mem _ hx)) h
      simp only [List.length_cons]; omega

theorem work_le {s : St} (hi : Inv s) : work s ≤ 12 * s.ev.q.length + 11 := by
  obtain ⟨c, hc, hcf⟩ := hi.one
  unfold work
  rw [hc]
  by_cases hs : s.cur.isSome = true
  · rw [hcf hs]; simp only [hs]; simp; split <;> omega
  · simp only [hs]
    cases c <;> simp <;> (try split) <;> omega

/-- Unless the event loop is at rest (with no `enqueue` in progress) it has a step to make. -/
theorem can_step {b : Nat} {s : St} (hi : Inv s) (hd : s.dead = false) (hp : returned s.ev = true)
    (hr : atRest s = false) : ∃ a s', loopStep a = true ∧ step b s a = some s' := by
  obtain ⟨c, hc, hcf⟩ := hi.one
  simp only [atRest, hd, hp, Bool.false_or, Bool.true_and] at hr
  cases hs : s.cur with
  | some x =>
    obtain ⟨x, st⟩ := x
    have := hcf (by rw [hs]; rfl); subst this
    refine ⟨.finish, ?_⟩
    simp only [step, hd, hs, EvQ.step, hc, loopStep]
    by_cases hb : s.cnt + 1 = b <;> simp [hb]
  | none =>
    cases c with
    | idle =>
      rw [hc] at hr
      simp at hr
      exact ⟨.fire, by simp [step, hd, EvQ.step, hc, loopStep, Nat.pos_of_ne_zero hr]⟩
    | func =>
      rcases hq : s.ev.q with _ | ⟨x, q⟩
      · exact ⟨.idle, by simp [step, hd, hs, EvQ.step, hc, loopStep, hq]⟩
      · exact ⟨.take, by simp [step, hd, hs, EvQ.step, hc, loopStep, hq]⟩
    | reset => exact ⟨.cb, by simp [step, hd, EvQ.step, hc, loopStep]⟩
    | exch => exact ⟨.cb, by simp [step, hd, EvQ.step, hc, loopStep]⟩
    | notify => exact ⟨.cb, by simp [step, hd, EvQ.step, hc, loopStep]⟩

end TC
end Salticidae

namespace Salticidae
namespace TC

/-- Calls are only ever appended to the sequence of accepted calls, and, without `stop`, run. -/
theorem grow_step {b : Nat} {s s' : St} {a : Act} (h : step b s a = some s') :
    s.ev.accepted <+: s'.ev.accepted ∧ (a ≠ .stop → s.stopped = false → (∀ x ∈ s.executed, x.2 = false) →
      s'.stopped = false ∧ ∀ x ∈ s'.executed, x.2 = false) := by
  unfold step at h
  split at h
  · cases h
  cases a with
  | destroy =>
    simp only at h
    split at h <;> cases h
    exact ⟨List.prefix_refl _, fun _ h1 h2 => ⟨h1, h2⟩⟩
  | stop => cases h; exact ⟨List.prefix_refl _, fun h => absurd rfl h⟩
  | finish =>
    simp only at h
    split at h
    · cases h
    · split at h
      · obtain ⟨ev, e, rfl⟩ := Option.map_eq_some_iff.1 h
        simp only [EvQ.step] at e
        split at e <;> cases e
        exact ⟨List.prefix_refl _, fun _ h1 h2 => ⟨h1, h2⟩⟩
      · cases h
        exact ⟨List.prefix_refl _, fun _ h1 h2 => ⟨h1, h2⟩⟩
  | take =>
    simp only at h
    split at h
    · cases h
    · split at h
      · cases h
      · obtain ⟨ev, e, rfl⟩ := Option.map_eq_some_iff.1 h
        simp only [EvQ.step] at e
        split at e <;> cases e
        refine ⟨List.prefix_refl _, fun _ h1 h2 => ⟨h1, ?_⟩⟩
        intro x hx
        rcases List.mem_append.1 hx with hx | hx
        · exact h2 x hx
        · simp at hx; rw [hx]; exact h1
  | idle =>
    simp only at h
    split at h
    · cases h
    · obtain ⟨ev, e, rfl⟩ := Option.map_eq_some_iff.1 h
      simp only [EvQ.step] at e
      split at e <;> cases e
      exact ⟨List.prefix_refl _, fun _ h1 h2 => ⟨h1, h2⟩⟩
  | submit c =>
    simp only at h
    obtain ⟨ev, e, rfl⟩ := Option.map_eq_some_iff.1 h
    simp only [EvQ.step] at e
    cases e
    exact ⟨List.prefix_refl _, fun _ h1 h2 => ⟨h1, h2⟩⟩
  | prod i =>
    simp only at h
    obtain ⟨ev, e, rfl⟩ := Option.map_eq_some_iff.1 h
    simp only [EvQ.step] at e
    split at e <;> cases e
    · exact ⟨List.prefix_append _ _, fun _ h1 h2 => ⟨h1, h2⟩⟩
    · exact ⟨List.prefix_refl _, fun _ h1 h2 => ⟨h1, h2⟩⟩
    · exact ⟨List.prefix_refl _, fun _ h1 h2 => ⟨h1, h2⟩⟩
  | fire =>
    simp only at h
    obtain ⟨ev, e, rfl⟩ := Option.map_eq_some_iff.1 h
    simp only [EvQ.step] at e
    split at e <;> cases e
    exact ⟨List.prefix_refl _, fun _ h1 h2 => ⟨h1, h2⟩⟩
  | cb =>
    simp only at h
    obtain ⟨ev, e, rfl⟩ := Option.map_eq_some_iff.1 h
    simp only [EvQ.step] at e
    split at e
    · split at e <;> cases e
      all_goals exact ⟨List.prefix_refl _, fun _ h1 h2 => ⟨h1, h2⟩⟩
    · cases e; exact ⟨List.prefix_refl _, fun _ h1 h2 => ⟨h1, h2⟩⟩
    · cases e; exact ⟨List.prefix_refl _, fun _ h1 h2 => ⟨h1, h2⟩⟩
    · cases e

theorem grow_run {b : Nat} : ∀ (as : List Act) (s s' : St), run b s as = some s' →
    s.ev.accepted <+: s'.ev.accepted ∧ (.stop ∉ as → s.stopped = false → (∀ x ∈ s.executed, x.2 = false) →
      s'.stopped = false ∧ ∀ x ∈ s'.executed, x.2 = false) := by
  intro as
  induction as with
  | nil => intro s s' h; cases h; exact ⟨List.prefix_refl _, fun _ h1 h2 => ⟨h1, h2⟩⟩
  | cons a as ih =>
    intro s s' h
    simp only [run] at h
    rcases e : step b s a with _ | s1
    · rw [e] at h; cases h
    · rw [e] at h
      have g1 := grow_step e
      have g2 := ih s1 s' h
      refine ⟨g1.1.trans g2.1, fun hs h1 h2 => ?_⟩
      simp only [List.mem_cons, not_or] at hs
      have := g1.2 (fun h => hs.1 h.symm) h1 h2
      exact g2.2 hs.2 this.1 this.2

end TC
end Salticidae
