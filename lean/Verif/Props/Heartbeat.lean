import Verif.Spec.Heartbeat
/-!
Property C60: heartbeats.
-/
namespace Salticidae
open Heartbeat Spec.Heartbeat

namespace Heartbeat

theorem split_snoc {α : Type} {log : List α} {e x y : α} {a b c : List α} (h : log ++ [e] = a ++ x :: b ++ y :: c) :
    (∃ c', c = c' ++ [e] ∧ log = a ++ x :: b ++ y :: c') ∨ (c = [] ∧ e = y ∧ log = a ++ x :: b) := by
  rcases List.eq_nil_or_concat c with hc | ⟨c', z, hc⟩
  · subst hc
    right
    have := List.append_inj' h rfl
    exact ⟨rfl, by simpa using this.2, by simpa using this.1⟩
  · rw [List.concat_eq_append] at hc
    subst hc
    left
    have h' : log ++ [e] = (a ++ x :: b ++ y :: c') ++ [z] := by simpa using h
    have := List.append_inj' h' rfl
    refine ⟨c', ?_, this.1⟩
    have h2 := this.2
    simp only [List.cons.injEq, and_true] at h2
    rw [h2]

/-- The last heartbeat was sent at `t`. -/
structure Last (g : Cfg) (s : St) (t : Nat) : Prop where
  silent : s.pongOk = false → ∃ a, s.log = a ++ [(t, .ping)]
  heard : s.pongOk = true → ∃ a w, s.log = a ++ [(w, .pong)]
  pings : ∀ u, (u, Ev.ping) ∈ s.log → u ≤ t
  now : t ≤ s.now
  armed : ∀ d, s.timer = some d → t + g.period ≤ d ∧ 2 * d ≤ 2 * t + 3 * g.period ∧ s.timerOk = false ∧ s.now ≤ d + g.lag
  fired : s.timer = none → s.timerOk = true
  ok : s.timerOk = true → t + g.period ≤ s.now
  both : ¬ (s.timerOk = true ∧ s.pongOk = true)
  -- the reset of the timeout that came with it
  reset : s.posted.getLast? = some t ∨ (s.posted = [] ∧ t + g.timeout ≤ s.deadline ∧ s.deadline ≤ t + g.lag + g.timeout)

structure Inv (g : Cfg) (s : St) (t : Nat) : Prop extends Last g s t where
  one : OneUnanswered s.log
  apart : Apart g.period s.log
  due : ∀ p ∈ s.posted, p ≤ s.now ∧ s.now ≤ p + g.lag
  live : s.dropped = false → s.now ≤ s.deadline + g.lag

/-- A heartbeat is sent. -/
theorem Inv.send {g : Cfg} {s : St} {t : Nat} (r : Nat) (hr : Rand g r) (hh : ∃ a w, s.log = a ++ [(w, .pong)])
    (hp : ∀ u, (u, Ev.ping) ∈ s.log → u ≤ t) (ht : t + g.period ≤ s.now) (h1 : OneUnanswered s.log) (h2 : Apart g.period s.log)
    (h3 : ∀ p ∈ s.posted, p ≤ s.now ∧ s.now ≤ p + g.lag) (h4 : s.dropped = false → s.now ≤ s.deadline + g.lag) :
    Inv g (sendPing (resetPingTimer s r)) s.now := by
  obtain ⟨a0, w0, hl⟩ := hh
  refine ⟨⟨fun _ => ⟨s.log, rfl⟩, by simp [sendPing], ?_, Nat.le_refl _, ?_, by simp [sendPing, resetPingTimer], by simp [sendPing],
    by simp [sendPing], ?_⟩, ?_, ?_, ?_, h4⟩
  · intro u hu
    simp only [sendPing, resetPingTimer, List.mem_append, List.mem_singleton, Prod.mk.injEq, and_true] at hu
    rcases hu with hu | hu
    · have := hp u hu; show u ≤ s.now; omega
    · exact Nat.le_of_eq hu
  · intro d hd
    simp only [sendPing, resetPingTimer, Option.some.injEq] at hd
    subst hd
    refine ⟨Nat.add_le_add_left hr.1 _, ?_, rfl, ?_⟩
    · have := hr.2; omega
    · show s.now ≤ _; omega
  · left; simp [sendPing, resetPingTimer]
  · intro a b c x y h
    rcases split_snoc (show s.log ++ [(s.now, .ping)] = _ from h) with ⟨c', _, hc⟩ | ⟨_, _, hc⟩
    · exact h1 a b c' x y hc
    · -- the last entry is an answer
      rcases List.eq_nil_or_concat b with hb | ⟨b', z, hb⟩
      · rw [hb, hl] at hc
        have := (List.append_inj' hc rfl).2
        simp at this
      · rw [List.concat_eq_append] at hb
        rw [hb, hl] at hc
        have hc' : a0 ++ [(w0, .pong)] = (a ++ (x, .ping) :: b') ++ [z] := by simpa using hc
        have := (List.append_inj' hc' rfl).2
        simp only [List.cons.injEq, and_true] at this
        exact ⟨w0, by rw [hb, ← this]; simp⟩
  · intro a b c x y h
    rcases split_snoc (show s.log ++ [(s.now, .ping)] = _ from h) with ⟨c', _, hc⟩ | ⟨_, he, hc⟩
    · exact h2 a b c' x y hc
    · have hx := hp x (by rw [hc]; simp)
      simp only [Prod.mk.injEq, and_true] at he
      omega
  · intro p hp
    simp only [sendPing, resetPingTimer, List.mem_append, List.mem_singleton] at hp
    rcases hp with hp | hp
    · exact h3 p hp
    · rw [hp]; exact ⟨Nat.le_refl _, Nat.le_add_right _ _⟩

theorem inv_start {g : Cfg} (due r : Nat) (hr : Rand g r) : Inv g (start due r) 0 := by
  refine ⟨⟨fun _ => ⟨[], rfl⟩, by simp [start, sendPing], ?_, Nat.le_refl _, ?_, by simp [start, sendPing, resetPingTimer],
    by simp [start, sendPing], by simp [start, sendPing], ?_⟩, ?_, ?_, ?_, ?_⟩
  · intro u hu
    simp [start, sendPing, resetPingTimer] at hu
    omega
  · intro d hd
    simp only [start, sendPing, resetPingTimer, Option.some.injEq] at hd
    subst hd
    have := hr.1; have := hr.2
    refine ⟨by omega, by omega, rfl, ?_⟩
    show 0 ≤ _; omega
  · left; simp [start, sendPing, resetPingTimer]
  · intro a b c x y h
    have := congrArg List.length h
    simp [start, sendPing, resetPingTimer] at this
    omega
  · intro a b c x y h
    have := congrArg List.length h
    simp [start, sendPing, resetPingTimer] at this
    omega
  · simp [start, sendPing, resetPingTimer]
  · intro _; show 0 ≤ _; omega

theorem inv_step {g : Cfg} {s s' : St} {t : Nat} {a : Act} (k : Inv g s t) (h : step g s a = some s') : ∃ t', Inv g s' t' ∧ t ≤ t' := by
  cases a with
  | tick d =>
    simp only [step] at h
    split at h
    · rename_i hc
      simp only [Option.some.injEq] at h
      subst h
      simp only [mayPass, Bool.and_eq_true, decide_eq_true_eq, List.all_eq_true] at hc
      refine ⟨t, ⟨⟨k.silent, k.heard, k.pings, ?_, ?_, k.fired, ?_, k.both, k.reset⟩, k.one, k.apart, ?_, ?_⟩, Nat.le_refl _⟩
      · have := k.now; show t ≤ s.now + d; omega
      · intro e he
        obtain ⟨h1, h2, h3, h4⟩ := k.armed e he
        refine ⟨h1, h2, h3, ?_⟩
        have := hc.2.1.1
        have he' : s.timer = some e := he
        rw [he'] at this
        simpa using this
      · intro ho; have := k.ok ho; show _ ≤ s.now + d; omega
      · intro p hp
        refine ⟨?_, hc.2.2 p hp⟩
        have := (k.due p hp).1
        show p ≤ s.now + d; omega
      · intro _; exact hc.2.1.2
    · cases h
  | timer r =>
    simp only [step] at h
    split at h
    · cases h
    rename_i d hd
    split at h
    · rename_i hc
      simp only [Option.some.injEq] at h
      subst h
      simp only [Bool.and_eq_true, decide_eq_true_eq] at hc
      obtain ⟨h1, h2, h3, h4⟩ := k.armed d hd
      unfold pingTimer
      simp only
      split
      · rename_i hp
        refine ⟨s.now, ?_, k.now⟩
        exact Inv.send (s := { s with timer := none, timerOk := true }) (t := t) r hc.2 (k.heard hp) k.pings
          (Nat.le_trans h1 hc.1.2) k.one k.apart k.due k.live
      · rename_i hp
        refine ⟨t, ⟨⟨k.silent, k.heard, k.pings, k.now, by simp, fun _ => rfl, fun _ => Nat.le_trans h1 hc.1.2, fun h => hp h.2, k.reset⟩,
          k.one, k.apart, k.due, k.live⟩, Nat.le_refl _⟩
    · cases h
  | pong r =>
    simp only [step] at h
    split at h
    · rename_i hc
      simp only [Option.some.injEq] at h
      subst h
      simp only [Bool.and_eq_true, decide_eq_true_eq] at hc
      have one' : OneUnanswered (s.log ++ [(s.now, .pong)]) := by
        intro a b c x y h
        rcases split_snoc h with ⟨c', _, hc⟩ | ⟨_, he, hc⟩
        · exact k.one a b c' x y hc
        · simp at he
      have apart' : Apart g.period (s.log ++ [(s.now, .pong)]) := by
        intro a b c x y h
        rcases split_snoc h with ⟨c', _, hc⟩ | ⟨_, he, hc⟩
        · exact k.apart a b c' x y hc
        · simp at he
      have pings' : ∀ u, (u, Ev.ping) ∈ s.log ++ [(s.now, .pong)] → u ≤ t := by
        intro u hu
        simp only [List.mem_append, List.mem_singleton, Prod.mk.injEq, reduceCtorEq, and_false, or_false] at hu
        exact k.pings u hu
      unfold pongHandler
      simp only
      split
      · rename_i ho
        refine ⟨s.now, ?_, k.now⟩
        exact Inv.send (s := { s with pongOk := true, log := s.log ++ [(s.now, .pong)] }) (t := t) r hc.2 ⟨_, _, rfl⟩ pings'
          (k.ok ho) one' apart' k.due k.live
      · rename_i ho
        exact ⟨t, ⟨⟨by simp, fun _ => ⟨_, _, rfl⟩, pings', k.now, k.armed, k.fired, k.ok, fun h => ho h.1, k.reset⟩,
          one', apart', k.due, k.live⟩, Nat.le_refl _⟩
    · cases h
  | reset =>
    simp only [step] at h
    split at h
    · cases h
    rename_i p rest hp
    split at h
    · cases h
    simp only [Option.some.injEq] at h
    subst h
    refine ⟨t, ⟨⟨k.silent, k.heard, k.pings, k.now, k.armed, k.fired, k.ok, k.both, ?_⟩, k.one, k.apart, ?_, ?_⟩, Nat.le_refl _⟩
    · simp only
      rcases k.reset with h | h
      · cases hr : rest with
        | nil =>
          right
          rw [hp, hr] at h
          simp only [List.getLast?_singleton, Option.some.injEq] at h
          have := k.due p (by rw [hp]; simp)
          refine ⟨rfl, ?_, ?_⟩ <;> omega
        | cons q l =>
          left
          rw [hp, hr] at h
          simpa using h
      · rw [hp] at h; simp at h
    · intro q hq
      exact k.due q (by rw [hp]; exact List.mem_cons_of_mem _ hq)
    · intro _; show s.now ≤ _; simp only; omega
  | timeout =>
    simp only [step] at h
    split at h
    · simp only [Option.some.injEq] at h
      subst h
      exact ⟨t, ⟨⟨k.silent, k.heard, k.pings, k.now, k.armed, k.fired, k.ok, k.both, k.reset⟩, k.one, k.apart, k.due, by simp⟩, Nat.le_refl _⟩
    · cases h

theorem inv_run {g : Cfg} : ∀ (l : List Act) (s s' : St) (t : Nat), Inv g s t → run g s l = some s' → ∃ t', Inv g s' t'
  | [], s, s', t, k, h => by cases h; exact ⟨t, k⟩
  | a :: l, s, s', t, k, h => by
    simp only [run] at h
    cases hx : step g s a with
    | none => rw [hx] at h; cases h
    | some u =>
      rw [hx] at h
      obtain ⟨t', k', _⟩ := inv_step k hx
      exact inv_run l u s' t' k' h

/-- The peer answers in time: the connection is not near its timeout. -/
structure Alive (g : Cfg) (R : Nat) (s : St) (t : Nat) : Prop where
  dropped : s.dropped = false
  head : ∀ p, s.posted.head? = some p → p + g.lag < s.deadline
  quick : s.pongOk = false → s.now ≤ t + R

theorem Alive.margin {g : Cfg} {R : Nat} {s : St} {t : Nat} (k : Inv g s t) (h : Alive g R s t)
    (hT : 3 * g.period + 4 * g.lag < 2 * g.timeout) (hR : R + g.lag < g.timeout) : s.now < s.deadline ∧ (s.posted = [] → s.now + g.lag < s.deadline) := by
  have h0 : s.posted = [] → s.now + g.lag < s.deadline := by
    intro hp
    have hr : t + g.timeout ≤ s.deadline := by
      rcases k.reset with hr | hr
      · rw [hp] at hr; cases hr
      · exact hr.2.1
    cases ht : s.timer with
    | some d =>
      have := k.armed d ht
      omega
    | none =>
      have ho := k.fired ht
      have : s.pongOk = false := by
        cases hq : s.pongOk with
        | false => rfl
        | true => exact absurd ⟨ho, hq⟩ k.both
      have := h.quick this
      omega
  refine ⟨?_, h0⟩
  cases hp : s.posted with
  | nil => have := h0 hp; omega
  | cons p l =>
    have h1 := h.head p (by rw [hp]; rfl)
    have h2 := (k.due p (by rw [hp]; simp)).2
    omega

theorem alive_send {g : Cfg} {R : Nat} {s : St} (r : Nat) (hd : s.dropped = false) (hh : ∀ p, s.posted.head? = some p → p + g.lag < s.deadline)
    (hm : s.posted = [] → s.now + g.lag < s.deadline) : Alive g R (sendPing (resetPingTimer s r)) s.now := by
  refine ⟨hd, ?_, fun _ => Nat.le_add_right _ _⟩
  intro p hp
  simp only [sendPing, resetPingTimer] at hp ⊢
  cases hq : s.posted with
  | nil =>
    rw [hq] at hp
    simp only [List.nil_append, List.head?_cons, Option.some.injEq] at hp
    subst hp
    exact hm hq
  | cons q l =>
    rw [hq] at hp
    exact hh p (by rw [hq]; exact hp)

theorem alive_step {g : Cfg} {R : Nat} {s s' : St} {t : Nat} {a : Act} (hT : 3 * g.period + 4 * g.lag < 2 * g.timeout) (hR : R + g.lag < g.timeout)
    (k : Inv g s t) (ka : Alive g R s t) (h : step g s a = some s') (hans : Answers R s a) : ∃ t', Inv g s' t' ∧ Alive g R s' t' := by
  have m := ka.margin k hT hR
  have hd : s.dropped = false := ka.dropped
  cases a with
  | tick d =>
    obtain ⟨t', k', _⟩ := inv_step k h
    have kk := inv_step k h
    simp only [step] at h
    split at h
    · simp only [Option.some.injEq] at h
      -- the same heartbeat is the last one
      have : ∃ t', Inv g s' t' ∧ (s.pongOk = false → t' = t) := by
        refine ⟨t', k', ?_⟩
        intro hp
        obtain ⟨a, ha⟩ := k.silent hp
        obtain ⟨a', ha'⟩ := k'.silent (by rw [← h]; exact hp)
        rw [← h] at ha'
        have ha' : s.log = a' ++ [(t', .ping)] := ha'
        rw [ha] at ha'
        have := (List.append_inj' ha' rfl).2
        simpa using this.symm
      obtain ⟨t', k', ht'⟩ := this
      refine ⟨t', k', ?_⟩
      subst h
      refine ⟨ka.dropped, ka.head, ?_⟩
      intro hp
      have hp : s.pongOk = false := hp
      rw [ht' hp]
      exact hans t (k.silent hp)
    · cases h
  | timer r =>
    simp only [step] at h
    split at h
    · cases h
    rename_i d hd'
    split at h
    · rename_i hc
      simp only [Option.some.injEq] at h
      subst h
      simp only [Bool.and_eq_true, decide_eq_true_eq] at hc
      obtain ⟨h1, h2, h3, h4⟩ := k.armed d hd'
      unfold pingTimer
      simp only
      split
      · rename_i hp
        refine ⟨s.now, ?_, ?_⟩
        · exact Inv.send (s := { s with timer := none, timerOk := true }) (t := t) r hc.2 (k.heard hp) k.pings
            (Nat.le_trans h1 hc.1.2) k.one k.apart k.due k.live
        · exact alive_send (s := { s with timer := none, timerOk := true }) r hd ka.head m.2
      · rename_i hp
        exact ⟨t, ⟨⟨k.silent, k.heard, k.pings, k.now, by simp, fun _ => rfl, fun _ => Nat.le_trans h1 hc.1.2, fun h => hp h.2, k.reset⟩,
          k.one, k.apart, k.due, k.live⟩, ⟨hd, ka.head, ka.quick⟩⟩
    · cases h
  | pong r =>
    have kk := inv_step k h
    simp only [step] at h
    split at h
    · rename_i hc
      simp only [Option.some.injEq] at h
      simp only [Bool.and_eq_true, decide_eq_true_eq] at hc
      by_cases ho : s.timerOk = true
      · obtain ⟨t', k', _⟩ := kk
        have e : s' = sendPing (resetPingTimer { s with pongOk := true, log := s.log ++ [(s.now, .pong)] } r) := by
          rw [← h]; unfold pongHandler; simp [ho]
        have al := alive_send (g := g) (R := R) (s := { s with pongOk := true, log := s.log ++ [(s.now, .pong)] }) r hd ka.head m.2
        rw [← e] at al
        have : t' = s.now := by
          obtain ⟨a, ha⟩ := k'.silent (by rw [e]; rfl)
          rw [e] at ha
          have := (List.append_inj' (show (s.log ++ [(s.now, .pong)]) ++ [(s.now, .ping)] = _ from ha) rfl).2
          simp only [List.cons.injEq, and_true, Prod.mk.injEq] at this
          exact this.symm
        rw [this] at k'
        exact ⟨s.now, k', al⟩
      · obtain ⟨t', k', _⟩ := kk
        have e : s' = { s with pongOk := true, log := s.log ++ [(s.now, .pong)] } := by
          rw [← h]; unfold pongHandler; simp [ho]
        refine ⟨t', k', ?_⟩
        subst e
        exact ⟨hd, ka.head, by simp⟩
    · cases h
  | reset =>
    have kk := inv_step k h
    simp only [step] at h
    split at h
    · cases h
    rename_i p rest hp
    split at h
    · cases h
    simp only [Option.some.injEq] at h
    obtain ⟨t', k', _⟩ := kk
    refine ⟨t', k', ?_⟩
    have ht : s.pongOk = false → t' = t := by
      intro hq
      obtain ⟨a, ha⟩ := k.silent hq
      obtain ⟨a', ha'⟩ := k'.silent (by rw [← h]; exact hq)
      rw [← h] at ha'
      have ha' : s.log = a' ++ [(t', .ping)] := ha'
      rw [ha] at ha'
      have := (List.append_inj' ha' rfl).2
      simpa using this.symm
    subst h
    refine ⟨hd, ?_, ?_⟩
    · intro q hq
      have hq : rest.head? = some q := hq
      have : q ∈ s.posted := by rw [hp]; exact List.mem_cons_of_mem _ (List.mem_of_mem_head? hq)
      have := (k.due q this).1
      show q + g.lag < s.now + g.timeout
      omega
    · intro hq
      have hq : s.pongOk = false := hq
      rw [ht hq]; exact ka.quick hq
  | timeout =>
    simp only [step] at h
    split at h
    · rename_i hc
      simp only [Bool.and_eq_true, decide_eq_true_eq] at hc
      have := m.1
      omega
    · cases h

theorem alive_run {g : Cfg} {R : Nat} (hT : 3 * g.period + 4 * g.lag < 2 * g.timeout) (hR : R + g.lag < g.timeout) :
    ∀ (l : List Act) (s s' : St) (t : Nat), Inv g s t → Alive g R s t → run g s l = some s' → (∀ e ∈ trace g s l, Answers R e.1 e.2) →
      s'.dropped = false
  | [], s, s', t, _, k, h, _ => by cases h; exact k.dropped
  | a :: l, s, s', t, k, ka, h, hans => by
    simp only [run] at h
    cases hx : step g s a with
    | none => rw [hx] at h; cases h
    | some u =>
      rw [hx] at h
      simp only [trace, hx, List.mem_cons, forall_eq_or_imp] at hans
      obtain ⟨t', k', ka'⟩ := alive_step hT hR k ka hx hans.1
      exact alive_run hT hR l u s' t' k' ka' h hans.2

end Heartbeat

/-- C60, first part: while connected a node has at most one unanswered heartbeat. -/
theorem C60_one_unanswered (g : Cfg) (due r : Nat) (hr : Rand g r) (l : List Act) (s : St) (h : run g (start due r) l = some s) :
    OneUnanswered s.log := by
  obtain ⟨t, k⟩ := inv_run l _ s 0 (inv_start due r hr) h
  exact k.one

/-- C60, second part: heartbeats are at least ping_period apart. -/
theorem C60_period (g : Cfg) (due r : Nat) (hr : Rand g r) (l : List Act) (s : St) (h : run g (start due r) l = some s) :
    Apart g.period s.log := by
  obtain ⟨t, k⟩ := inv_run l _ s 0 (inv_start due r hr) h
  exact k.apart

/-- C60, third part: a peer that has been silent since the heartbeat of time `t` is dropped within conn_timeout of it, up to the delay of
the two event loops involved (the call that sets the timeout, and the timeout itself). -/
theorem C60_silent_dropped (g : Cfg) (due r : Nat) (hr : Rand g r) (l : List Act) (s : St) (h : run g (start due r) l = some s)
    (t : Nat) (hs : SilentSince t s.log) (hd : s.dropped = false) : s.now ≤ t + g.timeout + 2 * g.lag := by
  obtain ⟨t', k⟩ := inv_run l _ s 0 (inv_start due r hr) h
  have ht : t ≤ t' := k.pings t (by obtain ⟨a, ha⟩ := hs; rw [ha]; simp)
  have ht : t' = t := by
    cases hp : s.pongOk with
    | true =>
      obtain ⟨a, w, ha⟩ := k.heard hp
      obtain ⟨a', ha'⟩ := hs
      rw [ha'] at ha
      have := (List.append_inj' ha rfl).2
      simp at this
    | false =>
      obtain ⟨a, ha⟩ := k.silent hp
      obtain ⟨a', ha'⟩ := hs
      rw [ha'] at ha
      have := (List.append_inj' ha rfl).2
      simp only [List.cons.injEq, Prod.mk.injEq, and_true] at this
      exact this.symm
  subst ht
  have h1 := k.live hd
  rcases k.reset with h2 | h2
  · have := (k.due t' (List.mem_of_getLast? h2)).2
    omega
  · omega

/-- C60, fourth part: a peer that answers every heartbeat within `R` is never dropped, when `R` and the longest time between heartbeats (1.5 ping_period) are below
conn_timeout by more than the delay of the event loops, and the timeout set when the connection was set up was not due at once. -/
theorem C60_answers_kept (g : Cfg) (R due r : Nat) (hr : Rand g r) (hT : 3 * g.period + 4 * g.lag < 2 * g.timeout) (hR : R + g.lag < g.timeout)
    (hdue : g.lag < due) (l : List Act) (s : St) (h : run g (start due r) l = some s)
    (hans : ∀ e ∈ trace g (start due r) l, Answers R e.1 e.2) : s.dropped = false := by
  refine alive_run hT hR l _ s 0 (inv_start due r hr) ⟨rfl, ?_, fun _ => Nat.zero_le _⟩ h hans
  intro p hp
  simp only [start, sendPing, resetPingTimer, List.nil_append, List.head?_cons, Option.some.injEq] at hp ⊢
  omega

/-- A run with the default configuration (30 s, 180 s) and a loop delay of 5 ms: two heartbeats answered, then silence. -/
example : (run ⟨30000, 180000, 5⟩ (start 100000 35000)
    [.tick 2, .reset, .tick 500, .pong 30000, .tick 34502, .timer 45000, .reset, .tick 44999, .pong 31000, .tick 1, .timer 30000, .reset,
     .tick 30000, .timer 30000, .tick 150000, .timeout]).map (fun s => (s.dropped, s.log)) =
    some (true, [(0, .ping), (502, .pong), (35004, .ping), (80003, .pong), (80004, .ping)]) := by decide +kernel

/-- The hypotheses of `C60_answers_kept` are met. -/
example : (trace ⟨30000, 180000, 5⟩ (start 100000 35000)
    [.tick 2, .reset, .tick 500, .pong 30000, .tick 34502, .timer 45000, .reset, .tick 44999, .pong 31000, .tick 1, .timer 30000, .reset]).all
    (fun e => match e.2 with
      | .tick d => match e.1.log.getLast? with
        | some (t, .ping) => decide (e.1.now + d ≤ t + 170000)
        | _ => true
      | _ => true) = true := by decide +kernel
example : 3 * 30000 + 4 * 5 < 2 * 180000 ∧ 170000 + 5 < 180000 ∧ Rand ⟨30000, 180000, 5⟩ 35000 := by decide

end Salticidae
