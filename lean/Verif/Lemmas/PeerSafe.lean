import Verif.Lemmas.PeerOne
/-!
Orderly and polite histories never reach undefined behaviour.
-/
namespace Salticidae
namespace PeerNet
open Spec.PeerNet

/-- What finish_handshake initialises. -/
def Ready (x : Peer) : Prop := x.pingTimerOk ≠ none ∧ x.pongOk ≠ none ∧ x.chosen ≠ none

structure One (x : Peer) : Prop where
  armed : x.pingArmed = true → Ready x
  pre : ∀ h, x.preempt = some h → x.inbound ≠ none ∧ x.state = .connected
  retry : x.curNtry ≠ 0 ∨ x.ntry ≠ 0 → x.retryInit = true

structure Safe (s : St) : Prop where
  ub : s.ub = false
  one : ∀ p, One (s.peers p)
  up : ∀ c p, (c, true) ∈ s.cbs → (s.conns c).peer = some p → Ready (s.peers p)
  posted : ∀ e ∈ s.posted, e.2 ≠ none

theorem safe_init : Safe init := by
  refine ⟨rfl, fun p => ⟨?_, ?_, ?_⟩, ?_, ?_⟩ <;> simp [init, newPeer]

theorem left_zero {n : Int} (h : left n ≠ 0) : n ≠ 0 := by
  unfold left at h; split at h <;> omega

theorem disc_pingArmed {x : Peer} (h : (disc x).pingArmed = true) : x.pingArmed = true := by
  unfold disc at h; split at h <;> simp_all

theorem one_step {g : Cfg} {s t : St} {a : Act} (b : Basic s) (k : Safe s) (hpol : Polite s a) (h : step g s a = some t) (q : Nat) :
    One (t.peers q) ∧ (q ≠ s.m → Ready (s.peers q) → Ready (t.peers q)) := by
  have e := pstep b h q
  have o := k.one q
  generalize t.peers q = y at e ⊢
  cases e with
  | same => exact ⟨o, fun _ h => h⟩
  | new pid ha hq => exact ⟨⟨by simp [newPeer], by simp [newPeer], by simp [newPeer]⟩, fun h => absurd hq h⟩
  | free pid ha => exact ⟨⟨o.armed, o.pre, o.retry⟩, fun _ h => h⟩
  | addr pid v ha => exact ⟨⟨o.armed, o.pre, o.retry⟩, fun _ h => h⟩
  | redial pid n ha hf hv =>
    have hp := hpol.2 pid n q ha hf
    refine ⟨⟨by simp [redial], ?_, by simp [redial]⟩, fun _ h => h⟩
    intro h hh
    simp only [redial] at hh
    rw [hp] at hh; cases hh
  | nonce d =>
    refine ⟨⟨?_, ?_, ?_⟩, ?_⟩
    · simpa [Ready] using o.armed
    · simpa using o.pre
    · simpa using o.retry
    · simp [Ready]
  | preempt c x hi hp hst => exact ⟨⟨o.armed, fun h _ => ⟨by simp, hst⟩, o.retry⟩, fun _ h => h⟩
  | reject d i o' hst hi =>
    refine ⟨⟨?_, ?_, ?_⟩, ?_⟩
    · simpa [Ready] using o.armed
    · intro h hh
      have := (o.pre h (by simpa using hh)).2
      rw [hst] at this; cases this
    · simpa using o.retry
    · simp [Ready]
  | fin d i o' c hst hcbs =>
    refine ⟨⟨fun _ => by simp [Ready, finished], ?_, ?_⟩, fun _ _ => by simp [Ready, finished]⟩
    · intro h hh
      have := (o.pre h (by simpa [finished] using hh)).2
      rw [hst] at this; cases this
    · intro h; simp only [finished, getNonce_ntry, or_self] at h
      simpa [finished] using o.retry (.inr h)
  | pong c x d ha hp => exact ⟨⟨fun h => ⟨(o.armed h).1, by simp, (o.armed h).2.2⟩, o.pre, o.retry⟩, fun _ h => ⟨h.1, by simp, h.2.2⟩⟩
  | beat ha =>
    have hr : Ready (s.peers q) := by
      rcases ha with ⟨c, x, d, ha, hp, hz⟩ | ⟨_, ha⟩
      · exact k.up c q (hpol.1 c x d ha hz) hp
      · exact o.armed ha
    exact ⟨⟨fun _ => ⟨by simp, by simp, hr.2.2⟩, o.pre, o.retry⟩, fun _ h => ⟨by simp, by simp, h.2.2⟩⟩
  | wait ha => exact ⟨⟨by simp, o.pre, o.retry⟩, fun _ h => ⟨by simp, h.2⟩⟩
  | takeover c x ha hp =>
    refine ⟨⟨fun h => ?_, by simp, ?_⟩, ?_⟩
    · simpa [Ready] using o.armed (disc_pingArmed h)
    · simpa using o.retry
    · simp [Ready]
  | backoff c ha hp =>
    refine ⟨⟨fun h => ?_, ?_, ?_⟩, ?_⟩
    · simpa [Ready] using o.armed (disc_pingArmed (by simpa using h))
    · simp [hp]
    · intro h
      have : (s.peers q).curNtry ≠ 0 ∨ (s.peers q).ntry ≠ 0 := by
        rcases h with h | h
        · left; rw [backoff_eq] at h; exact left_zero (by simpa using h)
        · right; simpa using h
      simpa using o.retry this
    · simp [Ready]
  | retry ha => exact ⟨⟨o.armed, o.pre, o.retry⟩, fun _ h => h⟩

/-- What a step does to the handshakes that were put off. -/
theorem posted_step {g : Cfg} {s t : St} {a : Act} (h : step g s a = some t) : t.posted = s.posted ∨
    (∃ c, a = .teardown c ∧ ∃ q x, t.posted = s.posted ++ [(x, (s.peers q).inbound)] ∧ (s.peers q).preempt = some x) ∨
    ∃ x, s.posted = x :: t.posted := by
  have hping : ∀ c x d (s0 : St), (pingClosure g s0 c x d).posted = s0.posted := by
    intro c x d s0
    cases ping_eff g s0 c x d with
    | nop e => exact e.posted
    | unknown _ _ _ _ e => rw [e]; rfl
    | preempt _ _ _ e => exact e.posted
    | reject _ _ _ _ e _ => exact e.posted
    | accept _ _ _ _ e => exact e.posted
  cases a with
  | addPeer pid =>
    left
    simp only [step, Option.some.injEq] at h; rw [← h]
    unfold addPeer; split <;> rfl
  | delPeer pid =>
    left
    simp only [step, Option.some.injEq] at h; rw [← h]
    cases hf : find s pid with
    | none => simp only [delPeer, hf]
    | some p => rw [(del_eff s pid p hf).posted]
  | setAddr pid v =>
    left
    simp only [step, Option.some.injEq] at h; rw [← h]
    unfold setPeerAddr; split <;> rfl
  | connPeer pid n =>
    left
    simp only [step, Option.some.injEq] at h; rw [← h]
    cases dial_eff s pid n with
    | err e h ht => rw [ht]
    | ok p hf ha e => exact e.posted
  | accept a cert => left; simp only [step] at h; split at h <;> simp at h; rw [← h]
  | connect a => left; simp only [step, Option.some.injEq] at h; rw [← h]
  | established c cert draw =>
    left
    simp only [step] at h
    split at h
    · injection h with h
      have e := est_eff g s c cert draw
      rw [h] at e
      exact e.posted
    · cases h
  | ping c x draw =>
    left
    simp only [step] at h
    split at h
    · injection h with h; rw [← h, hping]
    · cases h
  | pong c x draw =>
    left
    simp only [step] at h
    split at h
    · injection h with h; rw [← h]
      cases pong_eff g s c x draw with
      | nop e => exact e.posted
      | reject p _ _ e _ => exact e.posted
      | accept p _ _ e => exact e.posted
      | ub p hp hu e hz => obtain ⟨v, e | e, e2⟩ := e <;> rw [e2] <;> exact e.posted
      | wait _ _ _ _ e => exact e.posted
      | beat _ _ _ _ _ _ e => exact e.posted
      | beatUb p hp _ _ hd e hz => obtain ⟨v, e, e2⟩ := e; rw [e2]; exact e.posted
    · cases h
  | deferred draw =>
    right; right
    simp only [step] at h
    split at h
    · cases h
    · rename_i x c rest he
      injection h with h; rw [← h, hping]
      exact ⟨_, he⟩
    · rename_i x rest he
      injection h with h; rw [← h]
      exact ⟨_, he⟩
  | lost c => left; simp only [step] at h; split at h <;> simp at h; rw [← h]; rfl
  | teardown c =>
    simp only [step] at h
    split at h
    · injection h with h
      have e := (tear_eff s c).2
      rw [h] at e
      cases e with
      | nobody _ _ hp => exact .inl hp
      | ub _ _ _ _ _ hp => exact .inl hp
      | preempt p x _ _ _ hh _ hp => exact .inr (.inl ⟨c, rfl, p, x, hp, hh⟩)
      | backoff p _ _ _ _ _ hp => exact .inl hp
    · cases h
  | retry p =>
    left
    simp only [step] at h
    split at h
    · injection h with h
      have e := retry_eff s p
      rw [h] at e
      exact e.posted
    · cases h
  | pingTimer p =>
    left
    simp only [step] at h
    split at h
    · injection h with h
      have e := timer_eff s p
      rw [h] at e
      cases e with
      | wait _ e => exact e.posted
      | beat _ _ _ e => exact e.posted
      | ub hu e => obtain ⟨v, x, e, e2, _⟩ := e; rw [e2]; exact e.posted
    · cases h

theorem safe_step {who : Nat → Nat} {g : Cfg} {s t : St} {a : Act} (b : Basic s) (hcl : ∀ e ∈ s.cbs, e.1 < s.n) (o : Ord who s)
    (k : Safe s) (hpol : Polite s a) (h : step g s a = some t) : Safe t := by
  have hone := one_step b k hpol h
  have htt : ∀ c, c < s.n → (s.conns c).term = false → (s.conns c).torn = false := by
    intro c hc ht
    cases e : (s.conns c).torn with
    | false => rfl
    | true => rw [o.term c hc e] at ht; cases ht
  refine ⟨?_, fun p => (hone p).1, ?_, ?_⟩
  · -- no undefined behaviour in this step
    have hping : ∀ c x d (s0 : St), (pingClosure g s0 c x d).ub = s0.ub := by
      intro c x d s0
      cases ping_eff g s0 c x d with
      | nop e => exact e.ub
      | unknown _ _ _ _ e => rw [e]; rfl
      | preempt _ _ _ e => exact e.ub
      | reject _ _ _ _ e _ => exact e.ub
      | accept _ _ _ _ e => exact e.ub
    cases a with
    | addPeer pid =>
      simp only [step, Option.some.injEq] at h; rw [← h]
      unfold addPeer; split <;> exact k.ub
    | delPeer pid =>
      simp only [step, Option.some.injEq] at h; rw [← h]
      cases hf : find s pid with
      | none => simp only [delPeer, hf]; exact k.ub
      | some p => rw [(del_eff s pid p hf).ub]; exact k.ub
    | setAddr pid v =>
      simp only [step, Option.some.injEq] at h; rw [← h]
      unfold setPeerAddr; split <;> exact k.ub
    | connPeer pid n =>
      simp only [step, Option.some.injEq] at h; rw [← h]
      cases dial_eff s pid n with
      | err e h ht => rw [ht]; exact k.ub
      | ok p hf ha e => rw [e.ub]; exact k.ub
    | accept a cert => simp only [step] at h; split at h <;> simp at h; rw [← h]; exact k.ub
    | connect a => simp only [step, Option.some.injEq] at h; rw [← h]; exact k.ub
    | established c cert draw =>
      simp only [step] at h
      split at h
      · injection h with h
        have e := est_eff g s c cert draw
        rw [h] at e
        rw [e.ub]; exact k.ub
      · cases h
    | ping c x draw =>
      simp only [step] at h
      split at h
      · injection h with h; rw [← h, hping]; exact k.ub
      · cases h
    | pong c x draw =>
      simp only [step] at h
      split at h
      · rename_i hc
        injection h with h; rw [← h]
        by_cases ht : (s.conns c).term = true
        · have : pongClosure g s c x draw = s := by unfold pongClosure; rw [if_pos ht]
          rw [this]; exact k.ub
        have hready : ∀ p, (s.conns c).peer = some p → x.claimed = 0 → Ready (s.peers p) :=
          fun p hp hz => k.up c p (hpol.1 c x draw rfl hz) hp
        cases pong_eff g s c x draw with
        | nop e => rw [e.ub]; exact k.ub
        | reject p _ _ e _ => rw [e.ub]; exact k.ub
        | accept p _ _ e => rw [e.ub]; exact k.ub
        | ub p hp hu e hz =>
          exfalso
          rcases hu with hu | hu
          · have := (o.link c p (htt c hc.1 (by simpa using ht)) hp).1
            rw [hu] at this; cases this
          · exact (hready p hp hz).1 hu
        | wait _ _ _ _ e => rw [e.ub]; exact k.ub
        | beat _ _ _ _ _ _ e => rw [e.ub]; exact k.ub
        | beatUb p hp _ _ hd e hz => exact absurd hd (hready p hp hz).2.2
      · cases h
    | deferred draw =>
      simp only [step] at h
      split at h
      · cases h
      · injection h with h; rw [← h, hping]; exact k.ub
      · rename_i x rest he
        exact absurd rfl (k.posted (x, none) (by rw [he]; exact List.mem_cons_self))
    | lost c => simp only [step] at h; split at h <;> simp at h; rw [← h]; exact k.ub
    | teardown c =>
      simp only [step] at h
      split at h
      · rename_i hc
        injection h with h
        have e := (tear_eff s c).2
        rw [h] at e
        cases e with
        | nobody _ _ _ _ hub => rw [hub]; exact k.ub
        | ub p hp _ hf =>
          have := (o.link c p hc.2.2 hp).1
          rw [hf] at this; cases this
        | preempt _ _ _ _ _ _ _ _ _ hub => rw [hub]; exact k.ub
        | backoff p _ _ _ _ _ _ _ hub =>
          rw [hub, k.ub, backoff_eq]
          have := (k.one p).retry
          cases hr : (s.peers p).retryInit with
          | true => simp
          | false =>
            rw [hr] at this
            by_cases hl : left (s.peers p).curNtry = 0
            · simp [hl]
            · exact absurd (this (.inl (left_zero hl))) (by simp)
      · cases h
    | retry p =>
      simp only [step] at h
      split at h
      · injection h with h
        have e := retry_eff s p
        rw [h] at e
        rw [e.ub]; exact k.ub
      · cases h
    | pingTimer p =>
      simp only [step] at h
      split at h
      · rename_i hc
        injection h with h
        have hr := (k.one p).armed hc.2.2
        have e := timer_eff s p
        rw [h] at e
        cases e with
        | wait _ e => rw [e.ub]; exact k.ub
        | beat _ _ _ e => rw [e.ub]; exact k.ub
        | ub hu e =>
          rcases hu with hu | hu
          · exact absurd hu hr.2.1
          · exact absurd hu hr.2.2
      · cases h
  · intro c p h1 h2
    have old : (c, true) ∈ s.cbs → (s.conns c).peer = some p → Ready (t.peers p) := by
      intro h3 h4
      have := (b.link c p h4).2
      exact (hone p).2 (by omega) (k.up c p h3 h4)
    cases step_eff h with
    | quiet hcbs hconn hlink => rw [hcbs] at h1; exact old h1 (hlink c p h2)
    | dial q ha hcbs hconn hlink hnew =>
      rw [hcbs] at h1
      have := hcl _ h1
      simp only at this
      rw [hlink, if_neg (by omega)] at h2
      exact old h1 h2
    | add pid ha hcbs hconn hlink hnew =>
      rw [hcbs] at h1
      have := hcl _ h1
      simp only at this
      rw [hlink, if_neg (by omega)] at h2
      exact old h1 h2
    | accept q c' pid hi hf hst htm hcbs hconn hlink hup hl =>
      have hq : Ready (t.peers q) := by
        have e := pstep b h q
        have hne : (s.peers q).state ≠ (t.peers q).state := by rw [hst, hup]; simp
        generalize t.peers q = y at e hne hup ⊢
        have : ∀ x : Peer, x.state = .disconnected → x ≠ y := by
          intro x hx e; rw [e, hup] at hx; cases hx
        cases e with
        | fin d i o c hst hcbs => simp [Ready, finished]
        | takeover c x ha hp => simp at hup
        | backoff c ha hp => simp at hup
        | redial pid n ha hf hv => simp [redial, hst] at hup
        | new pid ha hq => simp [newPeer] at hup
        | nonce d => simp [hst] at hup
        | reject d i o' _ hi => simp [hst] at hup
        | _ => simp [hst] at hup
      rcases hlink c p h2 with ⟨_, e⟩ | h4
      · rw [e]; exact hq
      · rw [hcbs] at h1
        rcases List.mem_append.mp h1 with h1 | h1
        · exact old h1 h4
        · simp only [List.mem_singleton, Prod.mk.injEq, and_true] at h1
          subst h1
          rw [hl] at h2
          injection h2 with h2
          rw [← h2]; exact hq
    | down q c' ha hp hcbs hconn hlink hdown =>
      rw [hcbs] at h1
      rcases List.mem_append.mp h1 with h1 | h1
      · rw [hlink] at h2; exact old h1 h2
      · simp at h1
  · intro e he
    rcases posted_step h with hp | ⟨c, ha, q, x, hp, hx⟩ | ⟨x, hp⟩
    · rw [hp] at he; exact k.posted e he
    · rw [hp] at he
      rcases List.mem_append.mp he with he | he
      · exact k.posted e he
      · simp only [List.mem_singleton] at he
        rw [he]
        exact ((k.one q).pre x hx).1
    · exact k.posted e (by rw [hp]; exact List.mem_cons_of_mem _ he)

end PeerNet
end Salticidae
