import Verif.Lemmas.PeerAuth
import Verif.Spec.PeerAuth
/-!
C122: which connections a step asks to close.
-/
namespace Salticidae
namespace PeerNet
open Spec.PeerNet Spec.PeerAuth

/-- The handshake ping `h` over `d` asks to close `c`. -/
def AskPing (g : Cfg) (s : St) (d : Nat) (h : Hs) (c : Nat) : Prop :=
  h.claimed ≠ 0 ∧ (s.conns d).active = false ∧
    ((find s (pidOf g (s.conns d) h.claimed) = none ∧ c = d) ∨
      ∃ p, find s (pidOf g (s.conns d) h.claimed) = some p ∧
        ((s.peers p).state = .connected ∧ (s.peers p).conn = c ∨ (s.peers p).state = .disconnected ∧ ((s.peers p).inbound = some c ∨ c = d)))

/-- The handshake pong over `d` asks to close `c`. -/
def AskPong (g : Cfg) (s : St) (d : Nat) (h : Hs) (c : Nat) : Prop :=
  h.claimed ≠ 0 ∧ (s.conns d).active = true ∧
    ((find s (pidOf g (s.conns d) (s.conns d).addr) = none ∧ c = d) ∨
      ∃ p, find s (pidOf g (s.conns d) (s.conns d).addr) = some p ∧ (s.peers p).state = .disconnected ∧ ((s.peers p).outbound = some c ∨ c = d))

/-- The step asks to close `c`. -/
def Asks (g : Cfg) (s : St) (c : Nat) : Act → Prop
  | .delPeer pid => ∃ p, find s pid = some p ∧ ((s.peers p).conn = c ∨ (s.peers p).inbound = some c ∨ (s.peers p).outbound = some c)
  | .connPeer pid _ => ∃ p, find s pid = some p ∧ (s.peers p).conn = c
  | .established d _ _ => (s.conns d).setUp = false ∧ (c = d ∨ ∃ e ∈ s.pending, e.2 = c)
  | .ping d h _ => AskPing g s d h c
  | .deferred _ => ∃ h d r, s.posted = (h, some d) :: r ∧ AskPing g s d h c
  | .pong d h _ => AskPong g s d h c
  | .retry p => (s.peers p).freed = false ∧ (s.peers p).retryArmed = true ∧ p < s.m ∧ (s.peers p).outbound = some c
  | _ => False

theorem ask_term (s : St) (d c : Nat) : ((dispTerminate s d).conns c).asked = true ↔ c = d ∨ (s.conns c).asked = true := by
  simp only [dispTerminate, setConn, upd_apply]
  by_cases e : c = d <;> simp [e]
theorem ask_term? (s : St) (o : Option Nat) (c : Nat) : ((dispTerminate? s o).conns c).asked = true ↔ o = some c ∨ (s.conns c).asked = true := by
  cases o with
  | none => simp [dispTerminate?]
  | some d => simp only [dispTerminate?, ask_term, Option.some.injEq, @eq_comm _ d c]
theorem ask_send (s : St) (d c : Nat) (m : Msg) : ((send s d m).conns c).asked = (s.conns c).asked := by
  simp only [send, setConn, upd_apply]; split
  · subst_vars; rfl
  · rfl
theorem ask_unlink (s : St) (o : Option Nat) (c : Nat) : ((unlink s o).conns c).asked = (s.conns c).asked := by
  cases o with
  | none => rfl
  | some d =>
    simp only [unlink, setConn, upd_apply]; split
    · subst_vars; rfl
    · rfl
theorem ask_beat (s : St) (p c : Nat) : ((resetSendPing s p).conns c).asked = (s.conns c).asked := by
  unfold resetSendPing
  simp only
  split
  · rfl
  · rw [ask_send]; rfl
theorem ask_peer (s : St) (p c : Nat) (x : Peer) : ((setPeer s p x).conns c).asked = (s.conns c).asked := rfl
theorem ask_finish (s : St) (p d c : Nat) : ((finishHandshake s p d).conns c).asked = (s.conns c).asked := by
  simp only [finishHandshake]
  simp only [setConn, upd_apply]
  split
  · subst_vars
    rw [ask_unlink, ask_peer, ask_beat, ask_peer, ask_unlink]
  · rw [ask_unlink, ask_peer, ask_beat, ask_peer, ask_unlink]

theorem ask_decide (P : Prop) [Decidable P] (u : St) (p d c : Nat)
    (ha : ((if P then finishHandshake u p d else dispTerminate u d).conns c).asked = true) : c = d ∨ (u.conns c).asked = true := by
  split at ha
  · rw [ask_finish] at ha; exact .inr ha
  · exact (ask_term _ _ _).mp ha

theorem ask_ping (g : Cfg) (s : St) (d : Nat) (h : Hs) (draw : BitVec 16) (c : Nat) (ha : ((pingClosure g s d h draw).conns c).asked = true) :
    (s.conns c).asked = true ∨ AskPing g s d h c := by
  unfold pingClosure at ha
  split at ha
  · exact .inl ha
  split at ha
  · rw [ask_send] at ha; exact .inl ha
  rename_i hc
  split at ha
  · exact .inl ha
  rename_i hact
  simp only [Bool.not_eq_true] at hact
  split at ha
  · rename_i hf
    rcases (ask_term _ _ _).mp ha with e | e
    · exact .inr ⟨hc, hact, .inl ⟨hf, e⟩⟩
    · exact .inl e
  rename_i p hf
  split at ha
  · exact .inl ha
  split at ha
  · rename_i hs
    rcases (ask_term _ _ _).mp ha with e | e
    · refine .inr ⟨hc, hact, .inr ⟨p, hf, .inl ⟨hs, ?_⟩⟩⟩
      rw [e]; simp [setPeer, upd_apply]
    · exact .inl e
  · exact .inl ha
  · rename_i hs
    simp only at ha
    -- the state before the decision
    have main : ∀ (u : St), (u.conns c).asked = (s.conns c).asked → (u.peers p).inbound = (s.peers p).inbound →
        ((if (u.peers p).inbound = some d then u else dispTerminate? u (u.peers p).inbound).conns c).asked = true →
        (s.conns c).asked = true ∨ (s.peers p).inbound = some c := by
      intro u h1 h2 h3
      split at h3
      · rw [h1] at h3; exact .inl h3
      · rcases (ask_term? _ _ _).mp h3 with e | e
        · rw [h2] at e; exact .inr e
        · rw [h1] at e; exact .inl e
    have h2 : (s.conns c).asked = true ∨ (s.peers p).inbound = some c ∨ c = d := by
      rcases ask_decide _ _ _ _ _ ha with e | e
      · exact .inr (.inr e)
      · rw [ask_peer] at e
        rcases main _ (by rw [ask_send]; rfl) (by simp [send, setConn, setPeer, upd_apply, getNonce]; split <;> rfl) e with e | e
        · exact .inl e
        · exact .inr (.inl e)
    rcases h2 with e | e
    · exact .inl e
    · exact .inr ⟨hc, hact, .inr ⟨p, hf, .inr ⟨hs, e⟩⟩⟩

theorem ask_pong (g : Cfg) (s : St) (d : Nat) (h : Hs) (draw : BitVec 16) (c : Nat) (ha : ((pongClosure g s d h draw).conns c).asked = true) :
    (s.conns c).asked = true ∨ AskPong g s d h c := by
  unfold pongClosure at ha
  split at ha
  · exact .inl ha
  split at ha
  · rename_i hc
    split at ha
    · exact .inl ha
    rename_i hact
    simp only [Bool.not_eq_true', Bool.not_eq_false] at hact
    split at ha
    · rename_i hf
      rcases (ask_term _ _ _).mp ha with e | e
      · exact .inr ⟨hc, hact, .inl ⟨hf, e⟩⟩
      · exact .inl e
    rename_i p hf
    split at ha
    · exact .inl ha
    rename_i hs
    have hs' : (s.peers p).state = .disconnected := by
      cases e : (s.peers p).state with
      | disconnected => rfl
      | connected => exact absurd (.inl (by rw [e]; simp)) hs
      | reset => exact absurd (.inl (by rw [e]; simp)) hs
    have main : ((if (s.peers p).outbound = some d then s else dispTerminate? s (s.peers p).outbound).conns c).asked = true →
        (s.conns c).asked = true ∨ (s.peers p).outbound = some c := by
      intro h3
      split at h3
      · exact .inl h3
      · rcases (ask_term? _ _ _).mp h3 with e | e
        · exact .inr e
        · exact .inl e
    have h2 : (s.conns c).asked = true ∨ (s.peers p).outbound = some c ∨ c = d := by
      rcases ask_decide _ _ _ _ _ ha with e | e
      · exact .inr (.inr e)
      · rw [ask_peer, ask_peer] at e
        rcases main e with e | e
        · exact .inl e
        · exact .inr (.inl e)
    rcases h2 with e | e
    · exact .inl e
    · exact .inr ⟨hc, hact, .inr ⟨p, hf, hs', e⟩⟩
  · split at ha
    · exact .inl ha
    · split at ha
      · exact .inl ha
      · simp only at ha
        split at ha
        · exact .inl ha
        · rw [ask_beat] at ha; exact .inl ha
        · exact .inl ha

theorem ask_step {g : Cfg} {s t : St} {a : Act} (h : step g s a = some t) {c : Nat} (hc : c < s.n) (ha : (t.conns c).asked = true) :
    (s.conns c).asked = true ∨ Asks g s c a := by
  have new : ∀ x : Conn, (upd s.conns s.n x c).asked = true → (s.conns c).asked = true := by
    intro x hx; rw [upd_apply, if_neg (by omega)] at hx; exact hx
  cases a with
  | addPeer pid =>
    simp only [step, Option.some.injEq] at h; subst h
    unfold addPeer at ha
    split at ha
    · exact .inl ha
    · exact .inl (new _ ha)
  | delPeer pid =>
    simp only [step, Option.some.injEq] at h; subst h
    unfold delPeer at ha
    split at ha
    · exact .inl ha
    · rename_i p hf
      simp only at ha
      rw [ask_peer, ask_unlink, ask_unlink] at ha
      rcases (ask_term? _ _ _).mp ha with e | e
      · exact .inr ⟨p, hf, .inr (.inr e)⟩
      rcases (ask_term? _ _ _).mp e with e | e
      · exact .inr ⟨p, hf, .inr (.inl e)⟩
      rcases (ask_term _ _ _).mp e with e | e
      · exact .inr ⟨p, hf, .inl e.symm⟩
      rw [ask_unlink] at e; exact .inl e
  | setAddr pid v =>
    simp only [step, Option.some.injEq] at h; subst h
    unfold setPeerAddr at ha; split at ha <;> exact .inl ha
  | connPeer pid n =>
    simp only [step, Option.some.injEq] at h; subst h
    unfold connPeer at ha
    split at ha
    · exact .inl ha
    · rename_i p hf
      simp only at ha
      split at ha
      · exact .inl ha
      · split at ha
        · exact .inl ha
        · rcases (ask_term _ _ _).mp ha with e | e
          · exact .inr ⟨p, hf, e.symm⟩
          · exact .inl e
        · exact .inl ha
  | accept v x =>
    simp only [step] at h; split at h <;> cases h
    exact .inl (new _ ha)
  | connect v =>
    simp only [step, Option.some.injEq] at h; subst h
    exact .inl (new _ ha)
  | established d cert draw =>
    simp only [step] at h
    split at h
    · rename_i hgd
      injection h with h
      have key : ∀ u : St, (∀ x, (u.conns x).asked = (s.conns x).asked) → u.pending = s.pending →
          ((setup g u d draw).conns c).asked = true → (s.conns c).asked = true ∨ c = d ∨ ∃ e ∈ s.pending, e.2 = c := by
        intro u hu hpd ha
        have hs : ∀ x y, ((setConn u d { u.conns d with setUp := y }).conns x).asked = (s.conns x).asked := by
          intro x y
          simp only [setConn, upd_apply]
          split
          · subst_vars; exact hu _
          · exact hu _
        unfold setup at ha
        simp only at ha
        split at ha
        · split at ha
          · split at ha
            · rw [ask_send, hs] at ha; exact .inl ha
            · rcases (ask_term _ _ _).mp ha with e | e
              · exact .inr (.inl e)
              · rw [hs] at e; exact .inl e
          · rw [ask_send, ask_peer, hs] at ha; exact .inl ha
        · split at ha
          · rw [hs] at ha; exact .inl ha
          · rename_i e he
            split at ha
            · rw [hs] at ha; exact .inl ha
            · rcases (ask_term _ _ _).mp ha with e' | e'
              · refine .inr (.inr ⟨e, ?_, e'.symm⟩)
                have := List.mem_of_find?_eq_some he
                rw [← hpd]; exact this
              · rw [hs] at e'; exact .inl e'
      have hu : ∀ x, ((setConn s d { s.conns d with cert := if (s.conns d).active then cert else (s.conns d).cert }).conns x).asked = (s.conns x).asked := by
        intro x
        simp only [setConn, upd_apply]
        split
        · subst_vars; rfl
        · rfl
      rcases key (setConn s d { s.conns d with cert := if (s.conns d).active then cert else (s.conns d).cert }) hu rfl (by rw [h]; exact ha) with k | k
      · exact .inl k
      · exact .inr ⟨hgd.2.1, k⟩
    · cases h
  | ping d x y =>
    simp only [step] at h
    split at h
    · injection h with h; subst h
      exact ask_ping g s d x y c ha
    · cases h
  | pong d x y =>
    simp only [step] at h
    split at h
    · injection h with h; subst h
      exact ask_pong g s d x y c ha
    · cases h
  | deferred y =>
    simp only [step] at h
    split at h
    · cases h
    · rename_i x d r hp
      injection h with h; subst h
      rcases ask_ping g { s with posted := r } d x y c ha with k | k
      · exact .inl k
      · exact .inr ⟨x, d, r, hp, k⟩
    · injection h with h; subst h; exact .inl ha
  | lost d =>
    simp only [step] at h; split at h <;> cases h
    simp only [setConn, upd_apply] at ha
    split at ha
    · subst_vars; exact .inl ha
    · exact .inl ha
  | teardown d =>
    simp only [step] at h
    split at h
    · injection h with h
      have k := (tear_eff s d).1
      rw [h] at k
      rw [k.conns, upd_apply] at ha
      split at ha
      · subst_vars; exact .inl ha
      · exact .inl ha
    · cases h
  | retry p =>
    simp only [step] at h
    split at h
    · rename_i hgd
      injection h with h; subst h
      unfold retryTimer at ha
      simp only at ha
      rw [ask_peer] at ha
      rcases (ask_term? _ _ _).mp ha with e | e
      · exact .inr ⟨hgd.2.1, hgd.2.2, hgd.1, e⟩
      · exact .inl (new _ e)
    · cases h
  | pingTimer p =>
    simp only [step] at h
    split at h
    · injection h with h; subst h
      unfold pingTimer at ha
      simp only at ha
      split at ha
      · exact .inl ha
      · rw [ask_beat] at ha; exact .inl ha
      · exact .inl ha
    · cases h

/-! ## The connections that a peer holds besides its own -/

/-- What a step does to what a peer holds. -/
inductive Moved (g : Cfg) (s : St) (a : Act) (x y : Peer) (q n : Nat) : Prop where
  | same (h1 : y.inbound = x.inbound) (h2 : y.outbound = x.outbound) (h3 : y.state = x.state) (h4 : y.retryArmed = x.retryArmed)
  | inb (c pid : Nat) (hi : identity g s a = some (pid, c)) (hf : find s pid = some q) (ha : (s.conns c).active = false)
      (h1 : y.inbound = some c) (h2 : y.outbound = x.outbound) (h3 : y.state = x.state) (h4 : y.retryArmed = x.retryArmed)
  | outb (c pid : Nat) (hi : identity g s a = some (pid, c)) (hf : find s pid = some q) (ha : (s.conns c).active = true)
      (h1 : y.inbound = x.inbound) (h2 : y.outbound = some c) (h3 : y.state = .disconnected)
  | none (h1 : y.inbound = none) (h2 : y.outbound = none) (h3 : y.state ≠ .disconnected → y.retryArmed = false)
  | down (h1 : y.inbound = none) (h2 : y.outbound = x.outbound ∨ y.outbound = none) (h3 : y.state = .disconnected)
  | dial (ha : a = .retry q) (hr : x.retryArmed = true) (h1 : y.inbound = x.inbound) (h2 : y.outbound = some n) (h3 : y.state = x.state)

theorem moved_ping {g : Cfg} {s s0 : St} {a : Act} {c : Nat} {h : Hs} {d : BitVec 16} (h0 : s0.peers = s.peers) (h1 : s0.conns = s.conns) (h2 : s0.known = s.known)
    (hi : h.claimed ≠ 0 → (s.conns c).active = false → identity g s a = some (pidOf g (s.conns c) h.claimed, c)) (q : Nat) :
    Moved g s a (s.peers q) ((pingClosure g s0 c h d).peers q) q s.n := by
  have hfind : ∀ pid, find s0 pid = find s pid := fun pid => find_of_known h2 pid
  have key : ∀ (t : St) (p : Nat) (x : Peer), t.peers = upd s0.peers p x → (q = p → Moved g s a (s.peers q) x q s.n) → Moved g s a (s.peers q) (t.peers q) q s.n := by
    intro t p x e k
    rw [e, upd_apply]; split
    · rename_i e; exact k e
    · rw [h0]; exact .same rfl rfl rfl rfl
  cases ping_eff g s0 c h d with
  | nop e => rw [e.peers, h0]; exact .same rfl rfl rfl rfl
  | unknown _ _ _ _ e => rw [e]; simp only [dispTerminate, setConn, h0]; exact .same rfl rfl rfl rfl
  | preempt p hh _ e =>
    refine key _ p _ e.peers (fun eq => ?_)
    subst eq; rw [h0]
    have hp := hh.passive; rw [h1] at hp
    exact .inb c _ (hi hh.claimed hp) (by rw [← hfind, ← h1]; exact hh.found) hp rfl rfl rfl rfl
  | reject p hh _ _ e _ =>
    refine key _ p _ e.peers (fun eq => ?_)
    subst eq; rw [h0]
    have hp := hh.passive; rw [h1] at hp
    exact .inb c _ (hi hh.claimed hp) (by rw [← hfind, ← h1]; exact hh.found) hp rfl (by simp) (by simp) (by simp)
  | accept p hh _ _ e =>
    refine key _ p _ e.peers (fun eq => ?_)
    exact .none rfl rfl (fun _ => rfl)

theorem moved_step {g : Cfg} {s t : St} {a : Act} (h : step g s a = some t) (q : Nat) (hq : q < s.m) : Moved g s a (s.peers q) (t.peers q) q s.n := by
  have key : ∀ (p : Nat) (x : Peer), t.peers = upd s.peers p x → (q = p → Moved g s a (s.peers q) x q s.n) → Moved g s a (s.peers q) (t.peers q) q s.n := by
    intro p x e k
    rw [e, upd_apply]; split
    · rename_i e; exact k e
    · exact .same rfl rfl rfl rfl
  have keep : t.peers = s.peers → Moved g s a (s.peers q) (t.peers q) q s.n := fun e => by rw [e]; exact .same rfl rfl rfl rfl
  cases a with
  | addPeer pid =>
    simp only [step, Option.some.injEq] at h; subst h
    unfold addPeer at *
    split
    · exact .same rfl rfl rfl rfl
    · simp only [upd_apply, if_neg (show q ≠ s.m by omega)]; exact .same rfl rfl rfl rfl
  | delPeer pid =>
    simp only [step, Option.some.injEq] at h
    cases hf : find s pid with
    | none => exact keep (by rw [← h]; simp only [delPeer, hf])
    | some p =>
      have k := del_eff s pid p hf
      rw [h] at k
      refine key p _ k.peers (fun e => ?_)
      subst e; exact .same rfl rfl rfl rfl
  | setAddr pid v =>
    simp only [step, Option.some.injEq] at h
    unfold setPeerAddr at h
    split at h
    · exact keep (by rw [← h])
    · rename_i p hp
      refine key p _ (by rw [← h]; rfl) (fun e => ?_)
      subst e; exact .same rfl rfl rfl rfl
  | connPeer pid n =>
    simp only [step, Option.some.injEq] at h
    have k := dial_eff s pid n
    rw [h] at k
    cases k with
    | err e h ht => exact keep (by rw [ht])
    | ok p hf ha k =>
      refine key p _ k.peers (fun e => ?_)
      subst e
      refine .none rfl rfl ?_
      simp only [redial]
      intro h
      split
      · rename_i e; rw [e] at h; simp at h
      · rfl
  | accept v x =>
    simp only [step] at h; split at h <;> simp at h
    exact keep (by rw [← h])
  | connect v =>
    simp only [step, Option.some.injEq] at h
    exact keep (by rw [← h])
  | established d cert draw =>
    simp only [step] at h
    split at h
    · injection h with h
      have k := est_eff g s d cert draw
      rw [h] at k
      rcases k.peers with e | ⟨p, _, _, e⟩
      · exact keep e
      · refine key p _ e (fun e => ?_)
        subst e; exact .same (by simp) (by simp) (by simp) (by simp)
    · cases h
  | ping d x y =>
    simp only [step] at h
    split at h
    · injection h with h; subst h
      exact moved_ping rfl rfl rfl (fun h1 h2 => by simp [identity, h1, h2]) q
    · cases h
  | pong d x y =>
    simp only [step] at h
    split at h
    · injection h with h
      have k := pong_eff g s d x y
      rw [h] at k
      cases k with
      | nop e => exact keep e.peers
      | reject p hh _ e _ =>
        refine key p _ e.peers (fun eq => ?_)
        subst eq
        exact .outb d _ (by simp [identity, hh.claimed, hh.active]) hh.found hh.active (by simp) rfl (by simp [hh.state])
      | accept p hh hn e =>
        refine key p _ e.peers (fun eq => ?_)
        exact .none rfl rfl (fun _ => rfl)
      | ub p _ _ e =>
        obtain ⟨u, k | k, e⟩ := e
        · exact keep (by rw [e]; exact k.peers)
        · refine key p _ (by rw [e]; exact k.peers) (fun eq => ?_)
          subst eq; exact .same rfl rfl rfl rfl
      | wait p _ _ _ e =>
        refine key p _ e.peers (fun eq => ?_)
        subst eq; exact .same rfl rfl rfl rfl
      | beat p _ _ _ _ _ e =>
        refine key p _ e.peers (fun eq => ?_)
        subst eq; exact .same rfl rfl rfl rfl
      | beatUb p _ _ _ _ e =>
        obtain ⟨u, k, e⟩ := e
        refine key p _ (by rw [e]; exact k.peers) (fun eq => ?_)
        subst eq; exact .same rfl rfl rfl rfl
    · cases h
  | deferred y =>
    simp only [step] at h
    split at h
    · cases h
    · rename_i x d r hp
      injection h with h; subst h
      exact moved_ping (s := s) (s0 := { s with posted := r }) rfl rfl rfl (fun h1 h2 => by simp [identity, hp, h1, h2]) q
    · injection h with h; exact keep (by rw [← h])
  | lost d =>
    simp only [step] at h; split at h <;> simp at h
    exact keep (by rw [← h]; rfl)
  | teardown d =>
    simp only [step] at h
    split at h
    · injection h with h
      have k := (tear_eff s d).2
      rw [h] at k
      cases k with
      | nobody _ e => exact keep e
      | ub _ _ _ _ e => exact keep e
      | preempt p x _ _ _ _ e =>
        refine key p _ e (fun eq => ?_)
        subst eq
        refine .down rfl ?_ (by simp)
        show (disc (s.peers q)).outbound = _ ∨ _
        rw [disc_outbound]; split
        · exact .inl rfl
        · exact .inr rfl
      | backoff p _ _ _ _ e =>
        refine key p _ e (fun eq => ?_)
        subst eq
        refine .down (by simp) ?_ (by simp)
        rw [backoff_outbound, disc_outbound]; split
        · exact .inl rfl
        · exact .inr rfl
    · cases h
  | retry p =>
    simp only [step] at h
    split at h
    · rename_i hg
      injection h with h
      have k := retry_eff s p
      rw [h] at k
      refine key p _ k.peers (fun eq => ?_)
      subst eq; exact .dial rfl hg.2.2 rfl rfl rfl
    · cases h
  | pingTimer p =>
    simp only [step] at h
    split at h
    · injection h with h
      have k := timer_eff s p
      rw [h] at k
      cases k with
      | wait _ e =>
        refine key p _ e.peers (fun eq => ?_)
        subst eq; exact .same rfl rfl rfl rfl
      | beat _ _ _ e =>
        refine key p _ e.peers (fun eq => ?_)
        subst eq; exact .same rfl rfl rfl rfl
      | ub _ e =>
        obtain ⟨u, x, k, e, hx, _⟩ := e
        refine key p _ (by rw [e]; exact k.peers) (fun eq => ?_)
        subst eq
        rcases hx with hx | hx <;> subst hx <;> exact .same rfl rfl rfl rfl
    · cases h

/-- What peers hold. -/
structure Holds (g : Cfg) (s : St) : Prop where
  inb : ∀ p c, p < s.m → (s.peers p).inbound = some c → (s.conns c).active = false ∧ g.hashCert (s.conns c).cert = (s.peers p).id
  out : ∀ p c, p < s.m → (s.peers p).freed = false → (s.peers p).outbound = some c → (s.conns c).active = true ∧
    ((s.conns c).setUp = true → g.hashCert (s.conns c).cert = (s.peers p).id) ∧ ((s.conns c).setUp = false → (s.conns c).peer = some p)
  st : ∀ p, p < s.m → (s.peers p).state ≠ .disconnected → (s.peers p).outbound = none ∧ (s.peers p).retryArmed = false

theorem holds_init (g : Cfg) : Holds g init := ⟨by simp [init], by simp [init], by simp [init]⟩

theorem est_cert {g : Cfg} {s t : St} {d cert : Nat} {y : BitVec 16} (h : step g s (.established d cert y) = some t) (ha : (s.conns d).active = true) :
    (t.conns d).cert = cert ∧ (s.conns d).setUp = false := by
  simp only [step] at h
  split at h
  · rename_i hg
    injection h with h
    refine ⟨?_, hg.2.1⟩
    rw [← h, setup_cert]
    simp [setConn, upd_apply, ha]
  · cases h

theorem holds_step {g : Cfg} (hg : g.certMode = true) {s t : St} {a : Act} (b : Basic s) (u : UpInv s) (tl : ToldReal s) (i : Holds g s)
    (htr : DialReaches g s a) (h : step g s a = some t) : Holds g t := by
  have l := life_step h
  have sameId : ∀ p, p < s.m → (t.peers p).id = (s.peers p).id ∧ ((t.peers p).freed = false → (s.peers p).freed = false) := by
    intro p hp
    cases link_eff b h with
    | keep _ k => exact ⟨(k p).2.1, fun e => by rw [(k p).2.2] at e; exact e⟩
    | add _ _ _ k => rw [k, upd_apply, if_neg (by omega)]; exact ⟨rfl, id⟩
    | fin q _ _ _ _ _ _ _ _ _ k1 k2 =>
      by_cases e : p = q
      · subst e; exact ⟨k2.2.1, fun e => by rw [k2.2.2.1] at e; exact e⟩
      · rw [k1 p e]; exact ⟨rfl, id⟩
    | del _ q _ _ _ k =>
      rw [k, upd_apply]; split
      · subst_vars; exact ⟨rfl, fun e => by simp at e⟩
      · exact ⟨rfl, id⟩
  have mono : ∀ p, p < t.m → ¬ p < s.m → ∃ pid, t.peers p = newPeer pid s.n := by
    intro p hp hn
    cases link_eff b h with
    | keep hm => omega
    | fin _ _ _ _ _ _ _ _ _ hm => omega
    | del _ _ _ _ hm => omega
    | add pid _ hm k => exact ⟨pid, by rw [k, show p = s.m by omega, upd_self]⟩
  -- a connection that was held before
  have oldIn : ∀ p c, p < s.m → (s.peers p).inbound = some c → (t.conns c).active = false ∧ g.hashCert (t.conns c).cert = (t.peers p).id := by
    intro p c hp hc
    have k := i.inb p c hp hc
    have hn := (b.idx p hp).2.1 c hc
    rw [l.active c hn, cert_step h hn (.inl k.1), (sameId p hp).1]
    exact k
  have oldOut : ∀ p c, p < s.m → (t.peers p).freed = false → (s.peers p).outbound = some c → (t.peers p).outbound = some c → (t.conns c).active = true ∧
      ((t.conns c).setUp = true → g.hashCert (t.conns c).cert = (t.peers p).id) ∧ ((t.conns c).setUp = false → (t.conns c).peer = some p) := by
    intro p c hp hft hc hct
    have hfs := (sameId p hp).2 hft
    have k := i.out p c hp hfs hc
    have hn := (b.idx p hp).2.2.1 c hc
    refine ⟨by rw [l.active c hn]; exact k.1, fun hs => ?_, fun hs => ?_⟩
    · rw [(sameId p hp).1]
      rcases (l.setUp c hn).mp hs with e | ⟨cert, y, e⟩
      · rw [cert_step h hn (.inr e)]; exact k.2.1 e
      · subst e
        have := est_cert h k.1
        rw [this.1]
        exact htr c cert y p rfl k.1 (k.2.2 this.2) hfs
    · have hs0 : (s.conns c).setUp = false := by
        cases e : (s.conns c).setUp with
        | false => rfl
        | true => rw [(l.setUp c hn).mpr (.inl e)] at hs; cases hs
      have hl := k.2.2 hs0
      have notConn : ∀ q, q < s.m → (s.peers q).conn ≠ c := by
        intro q hq e
        have := tl q hq (by rw [e]; exact .inl k.1)
        rw [e] at this
        rw [(u.cbs c this).2] at hs0; cases hs0
      cases link_eff b h with
      | keep _ _ e => rw [e c hn]; exact hl
      | add _ _ _ _ e => rw [e, if_neg (by omega)]; exact hl
      | fin q d pid o hi hf _ _ ho _ hq hp' e =>
        have hqm := (b.find_iff.mp hf).1
        have hne : c ≠ d := by
          intro e; subst e
          have := (identity_proven hg b h hi).2.1
          rcases this with e | e
          · rw [k.1] at e; cases e
          · rw [hs0] at e; cases e
        have hqp : q ≠ p := by
          intro e; subst e; rw [hp'.2.2.2.2] at hct; cases hct
        rw [e, if_neg hne, if_neg]
        · exact hl
        · rintro (e | e)
          · rcases ho with ho | ho
            · rw [ho] at e; injection e with e; exact hne e.symm
            · rw [ho] at e
              have hfq := (b.find_iff.mp hf).2.2
              have := (i.out q c hqm hfq e).2.2 hs0
              rw [hl] at this; injection this with e; exact hqp e.symm
          · exact notConn q hqm e
      | del _ q _ hf _ hp' e =>
        have hqm := (b.find_iff.mp hf).1
        have hqp : q ≠ p := by
          intro e; subst e; rw [hp', upd_self] at hft; cases hft
        rw [e, if_neg]
        · exact hl
        · rintro (e | e | e)
          · exact notConn q hqm e
          · have := (i.inb q c hqm e).1
            rw [k.1] at this; cases this
          · have hfq := (b.find_iff.mp hf).2.2
            have := (i.out q c hqm hfq e).2.2 hs0
            rw [hl] at this; injection this with e; exact hqp e.symm
  refine ⟨fun p c hp hc => ?_, fun p c hp hf hc => ?_, fun p hp hs => ?_⟩
  · by_cases hps : p < s.m
    · cases moved_step h p hps with
      | same h1 => exact oldIn p c hps (by rw [← h1]; exact hc)
      | inb d pid hi hf ha h1 =>
        rw [h1] at hc; injection hc with e; subst e
        have k := identity_proven hg b h hi
        refine ⟨by rw [l.active _ k.1]; exact ha, ?_⟩
        rw [cert_step h k.1 (.inl ha), k.2.2, (sameId p hps).1]
        exact (b.find_iff.mp hf).2.1.symm
      | outb _ _ _ _ _ h1 => exact oldIn p c hps (by rw [← h1]; exact hc)
      | none h1 => rw [h1] at hc; cases hc
      | down h1 => rw [h1] at hc; cases hc
      | dial _ _ h1 => exact oldIn p c hps (by rw [← h1]; exact hc)
    · obtain ⟨pid, e⟩ := mono p hp hps
      rw [e] at hc; simp [newPeer] at hc
  · by_cases hps : p < s.m
    · cases moved_step h p hps with
      | same _ h2 => exact oldOut p c hps hf (by rw [← h2]; exact hc) hc
      | inb _ _ _ _ _ _ h2 => exact oldOut p c hps hf (by rw [← h2]; exact hc) hc
      | outb d pid hi hf' ha h1 h2 =>
        rw [h2] at hc; injection hc with e; subst e
        have k := identity_proven hg b h hi
        have hsu : (s.conns d).setUp = true := by
          rcases k.2.1 with e | e
          · rw [ha] at e; cases e
          · exact e
        refine ⟨by rw [l.active _ k.1]; exact ha, fun _ => ?_, fun e => ?_⟩
        · rw [cert_step h k.1 (.inr hsu), k.2.2, (sameId p hps).1]
          exact (b.find_iff.mp hf').2.1.symm
        · rw [(l.setUp d k.1).mpr (.inl hsu)] at e; cases e
      | none _ h2 => rw [h2] at hc; cases hc
      | down _ h2 =>
        rcases h2 with h2 | h2
        · exact oldOut p c hps hf (by rw [← h2]; exact hc) hc
        · rw [h2] at hc; cases hc
      | dial ha _ _ h2 =>
        rw [h2] at hc; injection hc with e; subst e
        subst ha
        simp only [step] at h
        split at h
        · injection h with h
          have k := retry_eff s p
          rw [h] at k
          refine ⟨by rw [k.newc.active]; rfl, fun e => ?_, fun _ => by rw [k.link, if_pos rfl]⟩
          rw [k.newc.setUp] at e; simp [newConn] at e
        · cases h
    · obtain ⟨pid, e⟩ := mono p hp hps
      rw [e] at hc; simp [newPeer] at hc
  · by_cases hps : p < s.m
    · cases moved_step h p hps with
      | same _ h2 h3 h4 => rw [h2, h4]; exact i.st p hps (by rw [← h3]; exact hs)
      | inb _ _ _ _ _ _ h2 h3 h4 => rw [h2, h4]; exact i.st p hps (by rw [← h3]; exact hs)
      | outb _ _ _ _ _ _ _ h3 => exact absurd h3 hs
      | none _ h2 h3 => exact ⟨h2, h3 hs⟩
      | down _ _ h3 => exact absurd h3 hs
      | dial _ hr _ _ h3 =>
        have := (i.st p hps (by rw [← h3]; exact hs)).2
        rw [hr] at this; cases this
    · obtain ⟨pid, e⟩ := mono p hp hps
      rw [e] at hs; simp [newPeer] at hs

/-- The pending connections have not been reported. -/
def Unreported (s : St) : Prop := ∀ e ∈ s.pending, e.2 < s.n ∧ e.1 = (s.conns e.2).addr ∧ (e.2, true) ∉ s.cbs

theorem unreported_step {g : Cfg} {s t : St} {a : Act} (b : Basic s) (u : UpInv s) (i : Unreported s) (h : step g s a = some t) : Unreported t := by
  have l := life_step h
  have old : ∀ e ∈ s.pending, (e.2, true) ∉ t.cbs → e.2 < t.n ∧ e.1 = (t.conns e.2).addr ∧ (e.2, true) ∉ t.cbs := by
    intro e he hr
    have k := i e he
    exact ⟨by have := l.n; omega, by rw [l.addr _ k.1]; exact k.2.1, hr⟩
  intro e he
  cases pend_eff b h with
  | keep hp _ _ hc => rw [hp] at he; exact old e he (by rw [hc]; exact (i e he).2.2)
  | accept c hp hcn _ _ hc =>
    rw [hp] at he
    obtain ⟨he, hne⟩ := List.mem_filter.mp he
    refine old e he ?_
    rw [hc]
    rintro (k | k)
    · simp only [ne_eq, decide_not, Bool.not_eq_true', decide_eq_false_iff_not] at hne
      rw [(i e he).2.1, k] at hne; exact hne rfl
    · exact (i e he).2.2 k
  | tear c _ _ hp hc =>
    rw [hp] at he
    have he := (List.mem_filter.mp he).1
    exact old e he (by rw [hc]; exact (i e he).2.2)
  | est c x d _ hcn hs _ hp hc =>
    rcases hp with ⟨hp, _⟩ | ⟨_, hp⟩
    · rw [hp] at he; exact old e he (by rw [hc]; exact (i e he).2.2)
    · rw [hp] at he
      rcases List.mem_append.mp he with he | he
      · have he := (List.mem_filter.mp he).1
        exact old e he (by rw [hc]; exact (i e he).2.2)
      · simp at he; subst he
        refine ⟨by have := l.n; omega, (l.addr c hcn).symm, ?_⟩
        rw [hc]
        intro k
        rw [(u.cbs c k).2] at hs; cases hs

end PeerNet
end Salticidae
