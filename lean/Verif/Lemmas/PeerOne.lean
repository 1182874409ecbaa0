import Verif.Lemmas.PeerOrd
/-!
What a step does to one peer, and the invariants that follow peer by peer.
-/
namespace Salticidae
namespace PeerNet
open Spec.PeerNet

/-- What a step can do to the peer `q`. -/
inductive PStep (g : Cfg) (s : St) (a : Act) (q : Nat) : Peer → Prop where
  | same : PStep g s a q (s.peers q)
  | new (pid : Nat) (ha : a = .addPeer pid) (hq : q = s.m) : PStep g s a q (newPeer pid s.n)
  | free (pid : Nat) (ha : a = .delPeer pid) : PStep g s a q { s.peers q with freed := true }
  | addr (pid v : Nat) (ha : a = .setAddr pid v) : PStep g s a q { s.peers q with addr := v }
  | redial (pid : Nat) (n : Int) (ha : a = .connPeer pid n) (hf : find s pid = some q) (hv : (s.peers q).addr ≠ 0) :
      PStep g s a q (PeerNet.redial (s.peers q) n)
  | nonce (d : BitVec 16) : PStep g s a q (getNonce (s.peers q) d)
  | preempt (c : Nat) (h : Hs) (hi : identity g s a = some ((s.peers q).id, c)) (hp : ∀ c h d, a ≠ .pong c h d) (hst : (s.peers q).state = .connected)
      (hf : find s (s.peers q).id = some q) (hz : h.claimed ≠ 0) : PStep g s a q { s.peers q with preempt := some h, inbound := some c, nonce := passiveNonce }
  | reject (d : BitVec 16) (i o : Option Nat) (hst : (s.peers q).state = .disconnected) (hi : i = (s.peers q).inbound ∨ i ≠ none) :
      PStep g s a q { getNonce (s.peers q) d with inbound := i, outbound := o }
  | fin (d : BitVec 16) (i o : Option Nat) (c : Nat) (hst : (s.peers q).state = .disconnected) (hcbs : ∀ t, step g s a = some t → (c, true) ∈ t.cbs)
      (hnew : ∀ t, step g s a = some t → t.cbs = s.cbs ++ [(c, true)]) :
      PStep g s a q (finished { getNonce (s.peers q) d with inbound := i, outbound := o } c)
  | pong (c : Nat) (h : Hs) (d : BitVec 16) (ha : a = .pong c h d) (hp : (s.conns c).peer = some q) (hz : h.claimed = 0)
      (ho : (s.peers q).pingTimerOk ≠ some true) : PStep g s a q { s.peers q with pongOk := some true }
  | beat (ha : (∃ c h d, a = .pong c h d ∧ (s.conns c).peer = some q ∧ h.claimed = 0) ∨ a = .pingTimer q ∧ (s.peers q).pingArmed = true)
      (ho : (∀ c h d, a = .pong c h d → (s.peers q).freed = false ∧ (s.peers q).pingTimerOk = some true) ∧
        (a = .pingTimer q → (s.peers q).pongOk = some true ∨ (s.peers q).pongOk = none ∨ (s.peers q).chosen = none)) : PStep g s a q { s.peers q with pingArmed := true, pingTimerOk := some false, pongOk := some false }
  | wait (ha : a = .pingTimer q) (ho : (s.peers q).pongOk ≠ some true) : PStep g s a q { s.peers q with pingTimerOk := some true, pingArmed := false }
  | takeover (c : Nat) (h : Hs) (ha : a = .teardown c) (hp : (s.peers q).preempt = some h) :
      PStep g s a q { disc (s.peers q) with preempt := none, inbound := none }
  | backoff (c : Nat) (ha : a = .teardown c) (hp : (s.peers q).preempt = none) : PStep g s a q (PeerNet.backoff (disc (s.peers q)))
  | retry (ha : a = .retry q) : PStep g s a q { s.peers q with outbound := some s.n, retryArmed := true, dials := (s.peers q).dials + 1 }

theorem PStep.upd {g : Cfg} {s : St} {a : Act} {p q : Nat} {x : Peer} (h : p = q → PStep g s a q x) :
    PStep g s a q (upd s.peers p x q) := by
  rw [upd_apply]; split
  · rename_i e; exact h e.symm
  · exact .same

theorem PStep.ping {g : Cfg} {s s0 : St} {a : Act} {c : Nat} {h : Hs} {d : BitVec 16} (b : Basic s) (q : Nat)
    (hs : s0 = s ∨ ∃ rest, s0 = { s with posted := rest }) (ht : step g s a = some (pingClosure g s0 c h d))
    (ha : ∀ c h d, a ≠ .pong c h d)
    (hi : h.claimed ≠ 0 → (s.conns c).active = false → identity g s a = some (pidOf g (s.conns c) h.claimed, c)) :
    PStep g s a q ((pingClosure g s0 c h d).peers q) := by
  have hh : s0.peers = s.peers ∧ s0.conns = s.conns ∧ s0.known = s.known ∧ s0.cbs = s.cbs := by
    rcases hs with e | ⟨r, e⟩ <;> rw [e] <;> exact ⟨rfl, rfl, rfl, rfl⟩
  obtain ⟨h2, h3, h4, h5⟩ := hh
  have hf : ∀ p, InHs g s0 c h p → identity g s a = some ((s.peers p).id, c) ∧ find s (s.peers p).id = some p := by
    intro p k
    have k1 := k.found
    rw [find_of_known h4, h3] at k1
    have k2 := (b.find_iff.mp k1).2.1
    rw [k2]
    exact ⟨hi k.claimed (by rw [← h3]; exact k.passive), k1⟩
  cases ping_eff g s0 c h d with
  | nop e => rw [e.peers, h2]; exact .same
  | unknown _ _ _ _ e => rw [e]; show PStep g s a q (s0.peers q); rw [h2]; exact .same
  | preempt p hh hst e =>
    rw [e.peers, h2]
    rw [h2] at hst
    refine .upd (fun e => ?_)
    subst e; exact .preempt c h (hf p hh).1 ha hst (hf p hh).2 hh.claimed
  | reject p hh hst hn e ea =>
    rw [e.peers, h2]
    rw [h2] at hst
    refine .upd (fun e => ?_)
    subst e; exact .reject d (some c) (getNonce (s.peers p) d).outbound hst (.inr (by simp))
  | accept p hh hst hn e =>
    have hc := e.cbs
    rw [e.peers, h2]
    rw [h2] at hst
    refine .upd (fun e => ?_)
    subst e; exact .fin d (some c) (getNonce (s.peers p) d).outbound c hst (fun t h => by
      rw [ht] at h; injection h with h; rw [← h, hc]; simp) (fun t h => by
      rw [ht] at h; injection h with h; rw [← h, hc, h5])

theorem pstep {g : Cfg} {s t : St} {a : Act} (b : Basic s) (h : step g s a = some t) (q : Nat) : PStep g s a q (t.peers q) := by
  have h0 := h
  cases a with
  | addPeer pid =>
    simp only [step, Option.some.injEq] at h; subst h
    unfold addPeer
    split
    · exact .same
    · exact .upd (fun e => .new pid rfl e.symm)
  | delPeer pid =>
    simp only [step, Option.some.injEq] at h; subst h
    cases hf : find s pid with
    | none => simp only [delPeer, hf]; exact .same
    | some p =>
      rw [(del_eff s pid p hf).peers]
      exact .upd (fun e => by subst e; exact .free pid rfl)
  | setAddr pid v =>
    simp only [step, Option.some.injEq] at h; subst h
    unfold setPeerAddr; split
    · exact .same
    · exact .upd (fun e => by subst e; exact .addr pid v rfl)
  | connPeer pid n =>
    simp only [step, Option.some.injEq] at h; subst h
    cases dial_eff s pid n with
    | err e h ht => rw [ht]; exact .same
    | ok p hf ha k =>
      rw [k.peers]
      exact .upd (fun e => by subst e; exact .redial pid n rfl hf ha)
  | accept a cert => simp only [step] at h; split at h <;> simp at h; rw [← h]; exact .same
  | connect a => simp only [step, Option.some.injEq] at h; rw [← h]; exact .same
  | established c cert draw =>
    simp only [step] at h
    split at h
    · injection h with h
      have k := est_eff g s c cert draw
      rw [h] at k
      rcases k.peers with hp | ⟨p, _, _, hp⟩
      · rw [hp]; exact .same
      · rw [hp]; exact .upd (fun e => by subst e; exact .nonce draw)
    · cases h
  | ping c x draw =>
    simp only [step] at h
    split at h
    · injection h with h
      subst h
      refine .ping b q (.inl rfl) h0 (by simp) (fun h1 h2 => ?_)
      simp only [identity]; rw [if_pos ⟨h1, h2⟩]
    · cases h
  | pong c x draw =>
    simp only [step] at h
    split at h
    · injection h with h; subst h
      cases pong_eff g s c x draw with
      | nop e => rw [e.peers]; exact .same
      | reject p hh hn e ea =>
        rw [e.peers]
        have hst := hh.state
        refine .upd (fun e => ?_)
        subst e; exact .reject draw (getNonce (s.peers p) draw).inbound (some c) hst (.inl (by simp))
      | accept p hh hn e =>
        have hc := e.cbs
        rw [e.peers]
        have hst := hh.state
        refine .upd (fun e => ?_)
        subst e; exact .fin draw (getNonce (s.peers p) draw).inbound (some c) c hst (fun t h => by
          rw [h0] at h; injection h with h; rw [← h, hc]; simp) (fun t h => by
          rw [h0] at h; injection h with h; rw [← h, hc])
      | ub p hp _ e hz hs =>
        by_cases hn : (s.peers p).pingTimerOk = none
        · obtain ⟨v, k | k, e⟩ := e <;> rw [e]
          · show PStep g s _ q (v.peers q); rw [k.peers]; exact .same
          · show PStep g s _ q (v.peers q); rw [k.peers]; exact .upd (fun e => by subst e; exact .pong c x draw rfl hp hz (by rw [hn]; simp))
        · rw [hs hn]; exact .same
      | wait p hp _ ho e hz => rw [e.peers]; exact .upd (fun e => by subst e; exact .pong c x draw rfl hp hz (by rw [ho]; simp))
      | beat p _ hp hfr ho _ e hz => rw [e.peers]; exact .upd (fun e => by subst e; exact .beat (.inl ⟨c, x, draw, rfl, hp, hz⟩) ⟨fun _ _ _ _ => ⟨hfr, ho⟩, by simp⟩)
      | beatUb p hp hfr ho _ e hz =>
        obtain ⟨v, k, e⟩ := e; rw [e]
        show PStep g s _ q (v.peers q); rw [k.peers]
        exact .upd (fun e => by subst e; exact .beat (.inl ⟨c, x, draw, rfl, hp, hz⟩) ⟨fun _ _ _ _ => ⟨hfr, ho⟩, by simp⟩)
    · cases h
  | deferred draw =>
    simp only [step] at h
    split at h
    · cases h
    · rename_i x c rest he
      injection h with h; subst h
      refine .ping b q (.inr ⟨rest, rfl⟩) h0 (by simp) (fun h1 h2 => ?_)
      simp only [identity, he]; rw [if_pos ⟨h1, h2⟩]
    · injection h with h; rw [← h]; exact .same
  | lost c => simp only [step] at h; split at h <;> simp at h; rw [← h]; exact .same
  | teardown c =>
    simp only [step] at h
    split at h
    · injection h with h
      have k := (tear_eff s c).2
      rw [h] at k
      cases k with
      | nobody _ hp => rw [hp]; exact .same
      | ub _ _ _ _ hp => rw [hp]; exact .same
      | preempt p x _ _ _ hh hp =>
        rw [hp]; exact .upd (fun e => by subst e; exact .takeover c x rfl hh)
      | backoff p _ _ _ hh hp => rw [hp]; exact .upd (fun e => by subst e; exact .backoff c rfl hh)
    · cases h
  | retry p =>
    simp only [step] at h
    split at h
    · injection h with h
      have k := retry_eff s p
      rw [h] at k
      rw [k.peers]
      exact .upd (fun e => by subst e; exact .retry rfl)
    · cases h
  | pingTimer p =>
    simp only [step] at h
    split at h
    · rename_i hg
      injection h with h
      have k := timer_eff s p
      rw [h] at k
      cases k with
      | wait hw e => rw [e.peers]; exact .upd (fun e => by subst e; exact .wait rfl (by rw [hw]; simp))
      | beat _ hw _ e => rw [e.peers]; exact .upd (fun e => by subst e; exact .beat (.inr ⟨rfl, hg.2.2⟩) ⟨by simp, fun _ => .inl hw⟩)
      | ub hw e =>
        obtain ⟨v, x, k, e, hx, hy⟩ := e; rw [e]
        show PStep g s _ q (v.peers q); rw [k.peers]
        refine .upd (fun e => ?_)
        subst e
        by_cases hn : (s.peers p).pongOk = none
        rotate_left
        · rw [hy hn]; exact .beat (.inr ⟨rfl, hg.2.2⟩) ⟨by simp, fun _ => .inr hw⟩
        rcases hx with hx | hx <;> rw [hx]
        · exact .wait rfl (by rw [hn]; simp)
        · exact .beat (.inr ⟨rfl, hg.2.2⟩) ⟨by simp, fun _ => .inr hw⟩
    · cases h

theorem trace_append {g : Cfg} {s t : St} {a b : List Act} (h : run g s a = some t) :
    trace g s (a ++ b) = trace g s a ++ trace g t b := by
  induction a generalizing s with
  | nil => simp only [run, Option.some.injEq] at h; subst h; rfl
  | cons x a ih =>
    simp only [run, Option.bind_eq_some_iff] at h
    obtain ⟨v, h1, h2⟩ := h
    simp only [List.cons_append, trace, h1, ih h2]

/-- Peers are never forgotten by number. -/
theorem m_step {g : Cfg} {s t : St} {a : Act} (h : step g s a = some t) : s.m ≤ t.m := by
  have hping : ∀ c x d (s0 : St), (pingClosure g s0 c x d).m = s0.m := by
    intro c x d s0
    cases ping_eff g s0 c x d with
    | nop e => exact e.m
    | unknown _ _ _ _ e => rw [e]; rfl
    | preempt _ _ _ e => exact e.m
    | reject _ _ _ _ e _ => exact e.m
    | accept _ _ _ _ e => exact e.m
  cases a with
  | addPeer pid =>
    simp only [step, Option.some.injEq] at h; rw [← h]
    unfold addPeer; split
    · exact Nat.le_refl _
    · exact Nat.le_succ _
  | delPeer pid =>
    simp only [step, Option.some.injEq] at h; rw [← h]
    cases hf : find s pid with
    | none => simp only [delPeer, hf]; exact Nat.le_refl _
    | some p => rw [(del_eff s pid p hf).m]; exact Nat.le_refl _
  | setAddr pid v =>
    simp only [step, Option.some.injEq] at h; rw [← h]
    unfold setPeerAddr; split <;> exact Nat.le_refl _
  | connPeer pid n =>
    simp only [step, Option.some.injEq] at h; rw [← h]
    cases dial_eff s pid n with
    | err e h ht => rw [ht]; exact Nat.le_refl _
    | ok p hf ha e => rw [e.m]; exact Nat.le_refl _
  | accept a cert => simp only [step] at h; split at h <;> simp at h; rw [← h]; exact Nat.le_refl _
  | connect a => simp only [step, Option.some.injEq] at h; rw [← h]; exact Nat.le_refl _
  | established c cert draw =>
    simp only [step] at h
    split at h
    · injection h with h
      have e := est_eff g s c cert draw
      rw [h] at e
      rw [e.m]; exact Nat.le_refl _
    · cases h
  | ping c x draw =>
    simp only [step] at h
    split at h
    · injection h with h; rw [← h, hping]; exact Nat.le_refl _
    · cases h
  | pong c x draw =>
    simp only [step] at h
    split at h
    · injection h with h; rw [← h]
      refine Nat.le_of_eq (Eq.symm ?_)
      cases pong_eff g s c x draw with
      | nop e => exact e.m
      | reject p _ _ e _ => exact e.m
      | accept p _ _ e => exact e.m
      | ub p hp hu e hz => obtain ⟨v, e | e, e2⟩ := e <;> rw [e2] <;> exact e.m
      | wait _ _ _ _ e => exact e.m
      | beat _ _ _ _ _ _ e => exact e.m
      | beatUb p hp _ _ hd e hz => obtain ⟨v, e, e2⟩ := e; rw [e2]; exact e.m
    · cases h
  | deferred draw =>
    simp only [step] at h
    split at h
    · cases h
    · injection h with h; rw [← h, hping]; exact Nat.le_refl _
    · injection h with h; rw [← h]; exact Nat.le_refl _
  | lost c => simp only [step] at h; split at h <;> simp at h; rw [← h]; exact Nat.le_refl _
  | teardown c =>
    simp only [step] at h
    split at h
    · injection h with h
      have e := (tear_eff s c).1
      rw [h] at e
      rw [e.m]; exact Nat.le_refl _
    · cases h
  | retry p =>
    simp only [step] at h
    split at h
    · injection h with h
      have e := retry_eff s p
      rw [h] at e
      rw [e.m]; exact Nat.le_refl _
    · cases h
  | pingTimer p =>
    simp only [step] at h
    split at h
    · injection h with h
      have e := timer_eff s p
      rw [h] at e
      refine Nat.le_of_eq (Eq.symm ?_)
      cases e with
      | wait _ e => exact e.m
      | beat _ _ _ e => exact e.m
      | ub hu e => obtain ⟨v, x, e, e2, _⟩ := e; rw [e2]; exact e.m
    · cases h

end PeerNet
end Salticidae
