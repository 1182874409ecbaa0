import Verif.Spec.SyncCall
namespace Salticidae
namespace SyncCall
open Spec.SyncCall

/-- The cells and what they hold. -/
def cells (r : Slot) (v : Option Nat) : List (Nat × Nat) :=
  match r.data, v with
  | some p, some v => [(p, v)]
  | _, _ => []

/-- `r` is a result with value `v`. -/
def Holds (s : St) (r : Slot) (v : Option Nat) : Prop := r.data.isSome = v.isSome ∧ s.heap = cells r v

/-- What `get` will give. -/
def final (err : Option Nat) (v : Option Nat) : Got := match err with | some e => .error e | none => .value v

def sets (l : List (Nat × Option Nat)) : List Instr := l.map fun x => .set x.1 x.2

/-- What comes out if the handle's result is `(err, v)` and the results `l` are still going to be set. -/
def outcome (err v : Option Nat) (l : List (Nat × Option Nat)) : Got :=
  match l.getLast? with
  | some x => final x.2 (some x.1)
  | none => final err v

def tail1 : List Instr := [.ready, .data, .all, .unlock, .delete]

inductive Inv (g : Got) : St → Prop where
  | before {s} (l : List (Nat × Option Nat)) (r : Slot) (v : Option Nat) (ht : s.todo = sets l ++ notifyCode ++ [.delete]) (hh : s.handle = some r)
      (hc : Holds s r v) (hn : ∀ p, r.data = some p → p < s.next) (ho : outcome r.error v l = g) (ha : s.alive = true) (hr : s.ready = false) (hb : s.box = {})
      (hp : (s.owner = some .caller ∧ (s.pc = .enqueue ∨ s.pc = .test)) ∨ (s.owner = none ∧ (s.pc = .sleep ∨ s.pc = .relock))) : Inv g s
  | locked {s} (r : Slot) (v : Option Nat) (rd : Bool) (ht : s.todo = if rd then tail1.drop 1 else tail1) (hh : s.handle = some r)
      (hc : Holds s r v) (ho : final r.error v = g) (ha : s.alive = true) (hr : s.ready = rd) (hb : s.box = {})
      (hw : s.owner = some .runner) (hp : s.pc = .sleep ∨ s.pc = .relock) : Inv g s
  | given {s} (v : Option Nat) (al : Bool) (ht : s.todo = if al then [.unlock, .delete] else [.all, .unlock, .delete]) (hh : s.handle = some {})
      (hc : Holds s s.box v) (ho : final s.box.error v = g) (ha : s.alive = true) (hr : s.ready = true)
      (hw : s.owner = some .runner) (hp : s.pc = .relock ∨ (al = false ∧ s.pc = .sleep)) : Inv g s
  | after {s} (v : Option Nat) (ht : (s.todo = [.delete] ∧ s.handle = some {}) ∨ (s.todo = [] ∧ s.handle = none))
      (hr : s.ready = true)
      (hp : (Holds s s.box v ∧ final s.box.error v = g ∧ s.alive = true ∧
          ((s.pc = .relock ∧ s.owner = none) ∨ (s.owner = some .caller ∧ (s.pc = .test ∨ s.pc = .move)))) ∨
        (Holds s s.mine v ∧ final s.mine.error v = g ∧ ((s.pc = .unlock ∧ s.owner = some .caller ∧ s.box = {} ∧ s.alive = true) ∨
            (s.pc = .destroy ∧ s.owner = none ∧ s.alive = true) ∨ s.pc = .get ∨ (s.pc = .drop ∧ s.got = some g))) ∨
        (s.pc = .done ∧ s.got = some g ∧ s.heap = [])) : Inv g s

/-- What remains to be done. -/
def work (s : St) : Nat := 3 * s.todo.length + match s.pc with
  | .enqueue => 10 | .relock => 9 | .test => 8 | .sleep => 7 | .move => 6 | .unlock => 5 | .destroy => 4 | .get => 3 | .drop => 2 | .done => 1


theorem free_held {s : St} {r : Slot} {v : Option Nat} (h : Holds s r v) : free s.heap r = some [] := by
  obtain ⟨h1, h2⟩ := h
  rcases hr : r.data with _ | p <;> rcases v with _ | v <;> rw [hr] at h1 <;> simp_all [free, cells]

theorem outcome_cons (err v : Option Nat) (x : Nat × Option Nat) (l : List (Nat × Option Nat)) :
    outcome err v (x :: l) = outcome x.2 (some x.1) l := by
  unfold outcome
  cases l with
  | nil => rfl
  | cons y l =>
    rw [List.getLast?_cons_cons]
    cases h : (y :: l).getLast? with
    | none => simp at h
    | some z => rfl

theorem inv_runner {g : Got} {s : St} (h : Inv g s) : runner s ≠ .ub ∧ ∀ t, runner s = .ok t → Inv g t := by
  unfold runner
  by_cases he : s.pc = .enqueue
  · rw [if_pos he]; exact ⟨by simp, by simp⟩
  rw [if_neg he]
  cases h with
  | before l r v ht hh hc hn ho ha hr hb hp =>
    cases l with
    | nil =>
      simp only [sets, notifyCode, List.map_nil, List.nil_append, List.cons_append] at ht
      simp only [ht, ha, Bool.not_true]
      rcases hp with ⟨h1, _⟩ | ⟨h1, h2⟩
      · simp [h1]
      · simp only [h1]
        refine ⟨by simp, fun t e => ?_⟩
        simp at e; subst e
        exact .locked r v false rfl hh hc ho rfl hr hb rfl h2
    | cons x l =>
      simp only [sets, List.map_cons, List.cons_append] at ht
      have hf : free ((s.next, x.1) :: s.heap) r = some [(s.next, x.1)] := by
        obtain ⟨h1, h2⟩ := hc
        rcases hr : r.data with _ | p
        · rw [hr] at h1
          cases v with
          | none => simp [free, h2, cells, hr]
          | some v => cases h1
        · rw [hr] at h1
          cases v with
          | none => cases h1
          | some v =>
            have := hn p hr
            simp only [free, h2, cells, hr]
            have h3 : ¬ p = s.next := by omega
            have h4 : ¬ s.next = p := by omega
            simp [h3, h4]
      simp only [ht, hh, hf]
      refine ⟨by simp, fun t e => ?_⟩
      simp only [Step.ok.injEq] at e; subst e
      refine .before l ⟨some s.next, x.2⟩ (some x.1) rfl rfl ⟨rfl, rfl⟩ ?_ ?_ ha hr hb hp
      · intro p hp; cases hp; exact Nat.lt_succ_self _
      · rw [← ho, outcome_cons]
  | locked r v rd ht hh hc ho ha hr hb hw hp =>
    cases rd with
    | false =>
      simp only [tail1] at ht
      simp only [ht, ha]
      refine ⟨by simp, fun t e => ?_⟩
      simp at e; subst e
      exact .locked r v true rfl hh hc ho rfl rfl hb hw hp
    | true =>
      simp only [tail1, List.drop_succ_cons, List.drop_zero] at ht
      simp only [ht, ha, hh, hb, free]
      refine ⟨by simp, fun t e => ?_⟩
      simp at e; subst e
      refine .given v false rfl rfl hc ho rfl hr hw ?_
      rcases hp with hp | hp
      · exact .inr ⟨rfl, hp⟩
      · exact .inl hp
  | given v al ht hh hc ho ha hr hw hp =>
    cases al with
    | false =>
      have ht : s.todo = [.all, .unlock, .delete] := ht
      simp only [ht, ha]
      refine ⟨by simp, fun t e => ?_⟩
      simp at e; subst e
      refine .given v true rfl hh hc ho rfl hr hw ?_
      left
      rcases hp with hp | ⟨_, hp⟩ <;> simp [hp]
    | true =>
      simp only [if_true] at ht
      have hp : s.pc = .relock := by simpa using hp
      simp only [ht, ha, hw]
      refine ⟨by simp, fun t e => ?_⟩
      simp at e; subst e
      exact .after v (.inl ⟨rfl, hh⟩) hr (.inl ⟨hc, ho, rfl, .inl ⟨hp, rfl⟩⟩)
  | after v ht hr hp =>
    rcases ht with ⟨h1, h2⟩ | ⟨h1, h2⟩
    · simp only [h1, h2, free]
      refine ⟨by simp, fun t e => ?_⟩
      simp at e; subst e
      exact .after v (.inr ⟨rfl, rfl⟩) hr hp
    · simp [h1]

theorem inv_caller {g : Got} {s : St} (h : Inv g s) : caller s ≠ .ub ∧ ∀ t, caller s = .ok t → Inv g t := by
  unfold caller
  cases h with
  | before l r v ht hh hc hn ho ha hr hb hp =>
    rcases hp with ⟨h1, h2 | h2⟩ | ⟨h1, h2 | h2⟩ <;> simp only [h2, hr, h1]
    · refine ⟨by simp, fun t e => ?_⟩
      simp at e; subst e
      exact .before l r v ht hh hc hn ho ha rfl hb (.inl ⟨rfl, .inr rfl⟩)
    · refine ⟨by simp, fun t e => ?_⟩
      simp at e; subst e
      exact .before l r v ht hh hc hn ho ha rfl hb (.inr ⟨rfl, .inl rfl⟩)
    · simp
    · refine ⟨by simp, fun t e => ?_⟩
      simp at e; subst e
      exact .before l r v ht hh hc hn ho ha rfl hb (.inl ⟨rfl, .inr rfl⟩)
  | locked r v rd ht hh hc ho ha hr hb hw hp =>
    rcases hp with h2 | h2 <;> simp [h2, hw]
  | given v al ht hh hc ho ha hr hw hp =>
    rcases hp with h2 | ⟨_, h2⟩ <;> simp [h2, hw]
  | after v ht hr hp =>
    rcases hp with ⟨hc, ho, ha, ⟨h1, h2⟩ | ⟨h1, h2 | h2⟩⟩ | ⟨hc, ho, hp⟩ | ⟨h1, h2, h3⟩
    · simp only [h1, h2]
      refine ⟨by simp, fun t e => ?_⟩
      simp at e; subst e
      exact .after v ht hr (.inl ⟨hc, ho, ha, .inr ⟨rfl, .inl rfl⟩⟩)
    · simp only [h2, hr]
      refine ⟨by simp, fun t e => ?_⟩
      simp at e; subst e
      exact .after v ht rfl (.inl ⟨hc, ho, ha, .inr ⟨h1, .inr rfl⟩⟩)
    · simp only [h2]
      refine ⟨by simp, fun t e => ?_⟩
      simp at e; subst e
      exact .after v ht hr (.inr (.inl ⟨hc, ho, .inl ⟨rfl, h1, rfl, ha⟩⟩))
    · rcases hp with ⟨h1, h2, h3, h4⟩ | ⟨h1, h2, h3⟩ | h1 | ⟨h1, h2⟩
      · simp only [h1, h2, h3, free]
        refine ⟨by simp, fun t e => ?_⟩
        simp at e; subst e
        exact .after v ht hr (.inr (.inl ⟨hc, ho, .inr (.inl ⟨rfl, rfl, h4⟩)⟩))
      · simp only [h1, h2]
        refine ⟨by simp, fun t e => ?_⟩
        simp at e; subst e
        exact .after v ht hr (.inr (.inl ⟨hc, ho, .inr (.inr (.inl rfl))⟩))
      · simp only [h1]
        obtain ⟨c1, c2⟩ := hc
        rcases he : s.mine.error with _ | e
        · rcases hd : s.mine.data with _ | p
          · simp only
            refine ⟨by simp, fun t e => ?_⟩
            simp only [Step.ok.injEq] at e; subst e
            refine .after v ht hr (.inr (.inl ⟨⟨c1, c2⟩, ho, .inr (.inr (.inr ⟨rfl, ?_⟩))⟩))
            rw [hd] at c1
            cases v with
            | none => rw [← ho, he]; rfl
            | some v => cases c1
          · rw [hd] at c1
            cases v with
            | none => cases c1
            | some v =>
              have hf : s.heap.find? (fun x => x.1 == p) = some (p, v) := by rw [c2]; simp [cells, hd]
              simp only [hf]
              refine ⟨by simp, fun t e => ?_⟩
              simp only [Step.ok.injEq] at e; subst e
              refine .after (some v) ht hr (.inr (.inl ⟨⟨by rw [hd]; rfl, c2⟩, ho, .inr (.inr (.inr ⟨rfl, ?_⟩))⟩))
              rw [← ho, he]; rfl
        · simp only
          refine ⟨by simp, fun t e => ?_⟩
          simp only [Step.ok.injEq] at e; subst e
          refine .after v ht hr (.inr (.inl ⟨⟨c1, c2⟩, ho, .inr (.inr (.inr ⟨rfl, ?_⟩))⟩))
          rw [← ho, he]; rfl
      · simp only [h1, free_held hc]
        refine ⟨by simp, fun t e => ?_⟩
        simp only [Step.ok.injEq] at e; subst e
        exact .after v ht hr (.inr (.inr ⟨rfl, h2, rfl⟩))
    · simp [h1]

theorem inv_wake {g : Got} {s : St} (h : Inv g s) : wake s ≠ .ub ∧ ∀ t, wake s = .ok t → Inv g t := by
  unfold wake
  by_cases he : s.pc = .sleep
  rotate_left
  · rw [if_neg he]; exact ⟨by simp, by simp⟩
  rw [if_pos he]
  refine ⟨by simp, fun t e => ?_⟩
  simp only [Step.ok.injEq] at e; subst e
  cases h with
  | before l r v ht hh hc hn ho ha hr hb hp =>
    refine .before l r v ht hh hc hn ho ha hr hb (.inr ⟨?_, .inr rfl⟩)
    rcases hp with ⟨h1, h2 | h2⟩ | ⟨h1, _⟩
    · rw [he] at h2; cases h2
    · rw [he] at h2; cases h2
    · exact h1
  | locked r v rd ht hh hc ho ha hr hb hw hp => exact .locked r v rd ht hh hc ho ha hr hb hw (.inr rfl)
  | given v al ht hh hc ho ha hr hw hp => exact .given v al ht hh hc ho ha hr hw (.inl rfl)
  | after v ht hr hp => simp [he] at hp

theorem inv_run {g : Got} (as : List Act) : ∀ s, Inv g s → run s as ≠ .ub ∧ ∀ t, run s as = .ok t → Inv g t := by
  induction as with
  | nil => intro s h; exact ⟨by simp [run], fun t e => by simp only [run, Step.ok.injEq] at e; subst e; exact h⟩
  | cons a as ih =>
    intro s h
    have key : step s a ≠ .ub ∧ ∀ t, step s a = .ok t → Inv g t := by
      cases a with
      | step w => cases w; exact inv_caller h; exact inv_runner h
      | wake => exact inv_wake h
    simp only [run]
    cases hs : step s a with
    | ok t => exact ih t (key.2 t hs)
    | blocked => simp
    | ub => exact absurd hs key.1

theorem inv_live {g : Got} {s : St} (h : Inv g s) : (Finished s → s.got = some g ∧ s.heap = [] ∧ s.handle = none) ∧
    (¬ Finished s → ∃ w t, step s (.step w) = .ok t) := by
  constructor
  · rintro ⟨h1, h2⟩
    cases h with
    | before l r v ht => rw [h2] at ht; simp [notifyCode] at ht
    | locked r v rd ht => rw [h2] at ht; cases rd <;> simp [tail1] at ht
    | given v al ht => rw [h2] at ht; cases al <;> simp at ht
    | after v ht hr hp =>
      rw [h2] at ht
      simp [h1] at hp ht
      exact ⟨hp.1, hp.2, ht⟩
  · intro hf
    cases h with
    | before l r v ht hh hc hn ho ha hr hb hp =>
      rcases hp with ⟨h1, h2 | h2⟩ | ⟨h1, h2⟩
      · exact ⟨.caller, _, by simp only [step, caller, h2]; rfl⟩
      · exact ⟨.caller, _, by simp only [step, caller, h2, hr]; rfl⟩
      · have he : s.pc ≠ .enqueue := by rcases h2 with h2 | h2 <;> simp [h2]
        cases hx : runner s with
        | ok t => exact ⟨.runner, t, hx⟩
        | ub => exact absurd hx (inv_runner (.before l r v ht hh hc hn ho ha hr hb (.inr ⟨h1, h2⟩) : Inv g s)).1
        | blocked =>
          cases l with
          | nil => simp [runner, ht, sets, notifyCode, he, ha, h1] at hx
          | cons x l =>
            simp only [runner, ht, sets, he, hh, List.map_cons, List.cons_append, if_false] at hx
            split at hx <;> cases hx
    | locked r v rd ht hh hc ho ha hr hb hw hp =>
      have he : s.pc ≠ .enqueue := by rcases hp with h2 | h2 <;> simp [h2]
      cases rd <;> exact ⟨.runner, _, by simp [step, runner, ht, tail1, he, ha, hh, hb, free]; rfl⟩
    | given v al ht hh hc ho ha hr hw hp =>
      have he : s.pc ≠ .enqueue := by rcases hp with h2 | ⟨_, h2⟩ <;> simp [h2]
      cases al <;> exact ⟨.runner, _, by simp [step, runner, ht, he, ha, hw]; rfl⟩
    | after v ht hr hp =>
      cases hx : caller s with
      | ok t => exact ⟨.caller, t, hx⟩
      | ub => exact absurd hx (inv_caller (.after v ht hr hp : Inv g s)).1
      | blocked =>
        have hd : s.pc = .done := by
          cases hpc : s.pc <;> simp only [caller, hpc] at hx <;> simp [hpc] at hp
          all_goals first | rfl | (exfalso; revert hx; repeat' split) <;> simp_all
        rcases ht with ⟨h1, h2⟩ | ⟨h1, h2⟩
        · exact ⟨.runner, _, by simp [step, runner, hd, h1, h2, free]; rfl⟩
        · exact absurd ⟨hd, h1⟩ hf

theorem inv_init (cb : Callback) (h : ∀ o ∈ cb.ops, o ≠ .sync) : Inv (result cb) (init cb) := by
  have hops : ∀ ops : List CbOp, (∀ o ∈ ops, o ≠ .sync) → ∃ vs : List Nat,
      ops.flatMap opCode = sets (vs.map (·, none)) ∧
      ∀ a, ops.foldl after a = (match vs.getLast? with | some v => some v | none => a) := by
    intro ops
    induction ops with
    | nil => intro _; exact ⟨[], rfl, fun _ => rfl⟩
    | cons o ops ih =>
      intro h
      obtain ⟨vs, h1, h2⟩ := ih fun o ho => h o (List.mem_cons_of_mem _ ho)
      cases o with
      | sync => exact absurd rfl (h _ List.mem_cons_self)
      | set v =>
        refine ⟨v :: vs, ?_, fun a => ?_⟩
        · rw [List.flatMap_cons, h1]; rfl
        · rw [List.foldl_cons, h2]
          cases vs with
          | nil => rfl
          | cons w vs =>
            rw [List.getLast?_cons_cons]
            cases h : (w :: vs).getLast? with
            | none => simp at h
            | some z => rfl
  obtain ⟨vs, h1, h2⟩ := hops cb.ops h
  refine .before (vs.map (·, none) ++ (match cb.throws with | none => [] | some e => [(0, some e)])) {} none ?_ rfl ⟨rfl, rfl⟩ ?_ ?_ rfl rfl rfl
    (.inl ⟨rfl, .inl rfl⟩)
  · show code cb = _
    rw [code, h1]
    cases cb.throws <;> simp [sets]
  · intro p hp; cases hp
  · unfold result outcome
    rw [h2]
    cases cb.throws with
    | some e => simp [final]
    | none =>
      rw [List.append_nil, List.getLast?_map]
      cases vs.getLast? <;> rfl

theorem work_runner {s t : St} (h : runner s = .ok t) : work t < work s := by
  unfold runner at h
  repeat' split at h
  all_goals first | cases h | skip
  all_goals simp_all [work]
  all_goals first | omega | skip

theorem work_caller {s t : St} (h : caller s = .ok t) : work t < work s := by
  unfold caller at h
  repeat' split at h
  all_goals first | cases h | skip
  all_goals simp_all [work]

theorem work_wake {s t : St} (h : wake s = .ok t) : work t = work s + 2 := by
  unfold wake at h
  split at h <;> cases h
  simp_all [work]

theorem work_run (as : List Act) : ∀ s t, run s as = .ok t →
    (as.filter (· ≠ .wake)).length + work t ≤ work s + 2 * as.count .wake := by
  induction as with
  | nil => intro s t h; cases h; simp
  | cons a as ih =>
    intro s t h
    simp only [run] at h
    cases hs : step s a with
    | blocked => rw [hs] at h; cases h
    | ub => rw [hs] at h; cases h
    | ok u =>
      rw [hs] at h
      have h1 := ih u t h
      cases a with
      | wake =>
        have := work_wake hs
        simp at h1 ⊢; omega
      | step w =>
        have : work u < work s := by cases w; exact work_caller hs; exact work_runner hs
        simp at h1 ⊢; omega

end SyncCall
end Salticidae
