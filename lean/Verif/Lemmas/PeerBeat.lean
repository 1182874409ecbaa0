import Verif.Lemmas.PeerSafe
import Verif.Lemmas.PeerPair
import Verif.Spec.PeerBeat
/-!
What a node sends: the heartbeat messages among the messages given to each connection.
-/
namespace Salticidae
namespace PeerNet
open Spec.PeerNet

/-- `t` has sent `f d` on connection `d`, after what `s` had sent. -/
def Outs (s t : St) (f : Nat → List Msg) : Prop := ∀ d, (t.conns d).out = (s.conns d).out ++ f d

theorem Outs.refl (s : St) : Outs s s (fun _ => []) := fun _ => by simp
theorem Outs.trans {s t u : St} {f g : Nat → List Msg} (h : Outs s t f) (k : Outs t u g) : Outs s u (fun d => f d ++ g d) :=
  fun d => by rw [k d, h d, List.append_assoc]
theorem Outs.send (s : St) (c : Nat) (m : Msg) : Outs s (send s c m) (fun d => if d = c then [m] else []) := fun d => out_send s c d m
theorem Outs.term (s : St) (c : Nat) : Outs s (dispTerminate s c) (fun _ => []) := fun d => by rw [out_term]; simp
theorem Outs.term? (s : St) (o : Option Nat) : Outs s (dispTerminate? s o) (fun _ => []) := by
  cases o with
  | none => exact .refl s
  | some c => exact .term s c
theorem Outs.unlink (s : St) (o : Option Nat) : Outs s (unlink s o) (fun _ => []) := fun d => by rw [out_unlink]; simp
theorem Outs.of_conns {s t : St} (h : t.conns = s.conns) : Outs s t (fun _ => []) := fun d => by rw [h]; simp
theorem Outs.finish (s : St) (p c : Nat) : Outs s (finishHandshake s p c) (fun d => if d = c then [.ping heartbeat] else []) :=
  fun d => (finish_out s p c d).1

theorem Outs.setPeer (s : St) (p : Nat) (x : Peer) : Outs s (setPeer s p x) (fun _ => []) := .of_conns rfl

theorem getNonce_pos (x : Peer) (d : BitVec 16) : (getNonce x d).nonce ≠ 0 := by
  unfold getNonce; split
  · simp
  · rename_i h; exact h

/-- The heartbeat pings and pongs among messages. -/
def pings (l : List Msg) : Nat := l.count (.ping heartbeat)
def pongs (l : List Msg) : Nat := l.count (.pong heartbeat)

theorem pings_append (l m : List Msg) : pings (l ++ m) = pings l + pings m := List.count_append
theorem pongs_append (l m : List Msg) : pongs (l ++ m) = pongs l + pongs m := List.count_append
theorem pings_nil : pings [] = 0 := rfl
theorem pongs_nil : pongs [] = 0 := rfl
theorem pings_hb : pings [.ping heartbeat] = 1 := by decide
theorem pongs_hb : pongs [.ping heartbeat] = 0 := by decide
theorem pings_pong (h : Hs) : pings [.pong h] = 0 := by
  unfold pings; rw [List.count_singleton, if_neg]; simp
theorem pongs_ping (h : Hs) : pongs [.ping h] = 0 := by
  unfold pongs; rw [List.count_singleton, if_neg]; simp
theorem pongs_hs (h : Hs) (hh : h ≠ heartbeat) : pongs [.pong h] = 0 := by
  unfold pongs; rw [List.count_singleton, if_neg]; simpa using hh
theorem pings_hs (h : Hs) (hh : h ≠ heartbeat) : pings [.ping h] = 0 := by
  unfold pings; rw [List.count_singleton, if_neg]; simpa using hh

theorem cbs_ne (l : List (Nat × Bool)) (x : Nat × Bool) : l ≠ l ++ [x] := by
  intro h
  have := congrArg List.length h
  simp at this

theorem cbs_inj {l : List (Nat × Bool)} {x y : Nat × Bool} (h : l ++ [x] = l ++ [y]) : x = y := by
  have := List.append_cancel_left h
  injection this

/-- What the closure of ping_handler sends. -/
theorem ping_outs (g : Cfg) (s : St) (c : Nat) (h : Hs) (draw : BitVec 16) : ∃ f, Outs s (pingClosure g s c h draw) f ∧
    ∀ d, (pongs (f d) = if d = c ∧ (s.conns c).term = false ∧ h.claimed = 0 then 1 else 0) ∧
      (pings (f d) = if (pingClosure g s c h draw).cbs = s.cbs ++ [(d, true)] then 1 else 0) := by
  have none : ∀ (t : St), Outs s t (fun _ => []) → t.cbs = s.cbs → ¬ ((s.conns c).term = false ∧ h.claimed = 0) →
      ∃ f, Outs s t f ∧ ∀ d, (pongs (f d) = if d = c ∧ (s.conns c).term = false ∧ h.claimed = 0 then 1 else 0) ∧
      (pings (f d) = if t.cbs = s.cbs ++ [(d, true)] then 1 else 0) := by
    intro t ho hc hn
    refine ⟨_, ho, fun d => ⟨?_, ?_⟩⟩
    · rw [if_neg (fun h => hn h.2)]; rfl
    · rw [hc, if_neg (cbs_ne _ _)]; rfl
  unfold pingClosure
  split
  · rename_i ht; exact none s (.refl s) rfl (fun h => by rw [ht] at h; cases h.1)
  rename_i ht
  simp only [Bool.not_eq_true] at ht
  split
  · rename_i hz
    refine ⟨_, .send s c _, fun d => ⟨?_, ?_⟩⟩
    · by_cases e : d = c
      · simp [e, pongs, ht, hz]
      · simp [e, pongs]
    · rw [show (send s c (.pong heartbeat)).cbs = s.cbs from rfl, if_neg (cbs_ne _ _)]
      split <;> simp [pings]
  rename_i hz
  have hn : ¬ ((s.conns c).term = false ∧ h.claimed = 0) := fun h => hz h.2
  split
  · exact none s (.refl s) rfl hn
  split
  · exact none _ ((Outs.of_conns (s := s) rfl).trans (.term _ c)) rfl hn
  rename_i p hf
  split
  · exact none s (.refl s) rfl hn
  split
  · exact none _ ((Outs.setPeer s p _).trans (.term _ _)) rfl hn
  · exact none s (.refl s) rfl hn
  · simp only
    have k1 := Outs.setPeer s p (getNonce (s.peers p) draw)
    have e1 : (setPeer s p (getNonce (s.peers p) draw)).peers p = getNonce (s.peers p) draw := by simp [setPeer]
    have c1 : (setPeer s p (getNonce (s.peers p) draw)).cbs = s.cbs := rfl
    generalize setPeer s p (getNonce (s.peers p) draw) = s1 at *
    have hm : pongs [Msg.pong ⟨g.listenAddr, (s1.peers p).nonce⟩] = 0 := by
      refine pongs_hs _ (fun h => ?_)
      injection h with _ h
      rw [e1] at h
      exact getNonce_pos _ _ h
    have hm2 : pings [Msg.pong ⟨g.listenAddr, (s1.peers p).nonce⟩] = 0 := pings_pong _
    have k2 := k1.trans (.send s1 c (.pong ⟨g.listenAddr, (s1.peers p).nonce⟩))
    have c2 : (send s1 c (.pong ⟨g.listenAddr, (s1.peers p).nonce⟩)).cbs = s.cbs := c1
    generalize (Msg.pong ⟨g.listenAddr, (s1.peers p).nonce⟩) = m at *
    generalize send s1 c m = s2 at *
    have k3 : Outs s (if (s2.peers p).inbound = some c then s2 else dispTerminate? s2 (s2.peers p).inbound)
        (fun d => if d = c then [m] else []) ∧ (if (s2.peers p).inbound = some c then s2 else dispTerminate? s2 (s2.peers p).inbound).cbs = s.cbs := by
      split
      · exact ⟨fun d => by simpa using k2 d, c2⟩
      · exact ⟨fun d => by simpa using (k2.trans (.term? s2 _)) d, (same0_term? _ _).cbs.trans c2⟩
    generalize (if (s2.peers p).inbound = some c then s2 else dispTerminate? s2 (s2.peers p).inbound) = s3 at *
    obtain ⟨k3, c3⟩ := k3
    have k4 := k3.trans (.setPeer s3 p { s3.peers p with inbound := some c })
    have c4 : (setPeer s3 p { s3.peers p with inbound := some c }).cbs = s.cbs := c3
    generalize setPeer s3 p { s3.peers p with inbound := some c } = s4 at *
    split
    · have hc := (finish_spec s4 p c).cbs
      refine ⟨_, k4.trans (.finish s4 p c), fun d => ⟨?_, ?_⟩⟩
      · rw [if_neg (c := _ ∧ _) (fun h => hn h.2)]
        by_cases e : d = c <;> simp only [e, if_true, if_false, List.append_nil, pongs_append, hm, pongs_hb, pongs_nil]
      · rw [hc, c4]
        by_cases e : d = c
        · simp only [e, if_true, List.append_nil, pings_append, hm2, pings_hb]
        · rw [if_neg (c := _ ++ _ = _) (fun h => e (by have := cbs_inj h; injection this with h; exact h.symm))]
          simp [e, pings_nil]
    · refine ⟨_, k4.trans (.term s4 c), fun d => ⟨?_, ?_⟩⟩
      · rw [if_neg (c := _ ∧ _) (fun h => hn h.2)]
        by_cases e : d = c <;> simp [e, pongs_append, hm, pongs_nil]
      · rw [show (dispTerminate s4 c).cbs = s.cbs from c4, if_neg (cbs_ne _ _)]
        by_cases e : d = c <;> simp [e, pings_append, hm2, pings_nil]

theorem Outs.beat (s : St) (p : Nat) :
    Outs s (resetSendPing s p) (fun d => if (s.peers p).chosen = some d then [.ping heartbeat] else []) := by
  intro d
  unfold resetSendPing
  simp only
  split
  · rename_i h; rw [h, if_neg (by simp), List.append_nil]; rfl
  · rename_i c h
    rw [out_send]
    show (s.conns d).out ++ _ = _
    rw [h]
    by_cases e : d = c
    · rw [if_pos e, if_pos (by rw [e])]
    · rw [if_neg e, if_neg (fun h => e (by injection h with h; exact h.symm))]

/-- The connection on which the completion of a heartbeat round sends the next ping. -/
def beatOn (s : St) : Act → Option Nat
  | .pong c h _ => if (s.conns c).term = false ∧ h.claimed = 0 then
      match (s.conns c).peer with
      | some p => if (s.peers p).freed = false ∧ (s.peers p).pingTimerOk = some true then (s.peers p).chosen else none
      | none => none
    else none
  | .pingTimer p => if (s.peers p).pongOk = some true then (s.peers p).chosen else none
  | _ => none

theorem pings_if (o : Option Nat) (d : Nat) :
    pings (if o = some d then [.ping heartbeat] else []) = if o = some d then 1 else 0 := by
  split
  · exact pings_hb
  · rfl

theorem pongs_if (o : Option Nat) (d : Nat) : pongs (if o = some d then [.ping heartbeat] else []) = 0 := by
  split
  · exact pongs_hb
  · rfl

theorem beat_cbs (s : St) (p : Nat) : (resetSendPing s p).cbs = s.cbs := by
  unfold resetSendPing; simp only; split <;> rfl

/-- What the closure of pong_handler sends. -/
theorem pong_outs (g : Cfg) (s : St) (c : Nat) (h : Hs) (draw : BitVec 16) : ∃ f, Outs s (pongClosure g s c h draw) f ∧
    ∀ d, pongs (f d) = 0 ∧ (pings (f d) = (if (pongClosure g s c h draw).cbs = s.cbs ++ [(d, true)] then 1 else 0) +
      if beatOn s (.pong c h draw) = some d then 1 else 0) := by
  have none : ∀ (t : St), Outs s t (fun _ => []) → t.cbs = s.cbs → beatOn s (.pong c h draw) = none →
      ∃ f, Outs s t f ∧ ∀ d, pongs (f d) = 0 ∧ (pings (f d) = (if t.cbs = s.cbs ++ [(d, true)] then 1 else 0) +
      if beatOn s (.pong c h draw) = some d then 1 else 0) := by
    intro t ho hc hn
    refine ⟨_, ho, fun d => ⟨rfl, ?_⟩⟩
    rw [hc, if_neg (cbs_ne _ _), hn]; simp [pings_nil]
  unfold pongClosure
  split
  · rename_i ht; exact none s (.refl s) rfl (by simp [beatOn, ht])
  rename_i ht
  simp only [Bool.not_eq_true] at ht
  split
  · rename_i hz
    have hb : beatOn s (.pong c h draw) = .none := by simp [beatOn, hz]
    split
    · exact none s (.refl s) rfl hb
    split
    · exact none _ (.term _ _) rfl hb
    rename_i p hf
    split
    · exact none s (.refl s) rfl hb
    simp only
    have k1 : Outs s (if (s.peers p).outbound = some c then s else dispTerminate? s (s.peers p).outbound) (fun _ => []) ∧
        (if (s.peers p).outbound = some c then s else dispTerminate? s (s.peers p).outbound).cbs = s.cbs := by
      split
      · exact ⟨.refl s, rfl⟩
      · exact ⟨.term? s _, (same0_term? _ _).cbs⟩
    generalize (if (s.peers p).outbound = some c then s else dispTerminate? s (s.peers p).outbound) = s1 at *
    obtain ⟨k1, c1⟩ := k1
    have k2 := k1.trans (.setPeer s1 p { s1.peers p with outbound := some c })
    have c2 : (setPeer s1 p { s1.peers p with outbound := some c }).cbs = s.cbs := c1
    generalize setPeer s1 p { s1.peers p with outbound := some c } = s2 at *
    have k3 := k2.trans (.setPeer s2 p (getNonce (s2.peers p) draw))
    have c3 : (setPeer s2 p (getNonce (s2.peers p) draw)).cbs = s.cbs := c2
    generalize setPeer s2 p (getNonce (s2.peers p) draw) = s3 at *
    split
    · have hc := (finish_spec s3 p c).cbs
      refine ⟨_, k3.trans (.finish s3 p c), fun d => ⟨?_, ?_⟩⟩
      · by_cases e : d = c <;> simp [e, pongs_hb, pongs_nil]
      · rw [hc, c3, hb]
        by_cases e : d = c
        · simp [e, pings_hb]
        · rw [if_neg (c := _ ++ _ = _) (fun h => e (by have := cbs_inj h; injection this with h; exact h.symm))]
          simp [e, pings_nil]
    · exact none _ (k3.trans (.term s3 c)) c3 hb
  · rename_i hz
    simp only [ne_eq, Decidable.not_not] at hz
    split
    · rename_i hp; exact none s (.refl s) rfl (by simp [beatOn, hp])
    rename_i p hp
    split
    · rename_i hf; exact none _ (.of_conns rfl) rfl (by simp [beatOn, hp, hf])
    rename_i hf
    simp only [Bool.not_eq_true] at hf
    simp only
    have hq : ((setPeer s p { s.peers p with pongOk := some true }).peers p).pingTimerOk = (s.peers p).pingTimerOk := by simp [setPeer]
    have e2 : ((setPeer s p { s.peers p with pongOk := some true }).peers p).chosen = (s.peers p).chosen := by simp [setPeer]
    have k1 := Outs.setPeer s p { s.peers p with pongOk := some true }
    have c1 : (setPeer s p { s.peers p with pongOk := some true }).cbs = s.cbs := rfl
    simp only at hq e2 k1 c1
    generalize setPeer s p _ = s1 at *
    obtain ⟨v, h1⟩ : ∃ v, (s1.peers p).pingTimerOk = v := ⟨_, rfl⟩
    have h2 := h1
    rw [hq] at h2
    rcases v with _ | _ | _ <;> simp only [h1]
    · exact none _ (fun d => k1 d) c1 (by simp [beatOn, hp, h2])
    · exact none _ k1 c1 (by simp [beatOn, hp, h2])
    · refine ⟨_, k1.trans (.beat _ p), fun d => ?_⟩
      have e : beatOn s (.pong c h draw) = (s.peers p).chosen := by simp [beatOn, ht, hz, hp, hf, h2]
      rw [e2, beat_cbs, e, c1]
      simp only [List.nil_append, pings_if, pongs_if, true_and]
      rw [if_neg (c := _ = _ ++ _) (fun h => cbs_ne _ _ h)]; simp

/-- What the expiry of the ping timer sends. -/
theorem timer_outs (s : St) (p : Nat) : ∃ f, Outs s (pingTimer s p) f ∧
    ∀ d, pongs (f d) = 0 ∧ pings (f d) = if beatOn s (.pingTimer p) = some d then 1 else 0 := by
  unfold pingTimer
  simp only
  split
  · rename_i h
    exact ⟨_, .of_conns (s := s) rfl, fun d => ⟨rfl, by simp [beatOn, h, pings_nil]⟩⟩
  · rename_i h
    refine ⟨_, (Outs.setPeer s p _).trans (.beat _ p), fun d => ?_⟩
    have e2 : ((setPeer s p { s.peers p with pingTimerOk := some true, pingArmed := false }).peers p).chosen = (s.peers p).chosen := by simp [setPeer]
    rw [e2]
    simp [pings_if, pongs_if, beatOn, h]
  · rename_i h
    exact ⟨_, .setPeer s p _, fun d => ⟨rfl, by simp [beatOn, h, pings_nil]⟩⟩

/-- What on_dispatcher_setup sends: no heartbeat. -/
theorem est_outs (g : Cfg) (s : St) (c cert : Nat) (draw : BitVec 16) :
    ∃ f, Outs s (setup g (setConn s c { s.conns c with cert := if (s.conns c).active then cert else (s.conns c).cert }) c draw) f ∧
    ∀ d, pongs (f d) = 0 ∧ (g.listenAddr ≠ 0 → pings (f d) = 0) := by
  unfold setup
  generalize e1 : setConn (setConn s c { s.conns c with cert := if (s.conns c).active then cert else (s.conns c).cert }) c
    { (setConn s c { s.conns c with cert := if (s.conns c).active then cert else (s.conns c).cert }).conns c with setUp := true } = s1
  have k : Outs s s1 (fun _ => []) := by
    intro d; subst e1
    simp only [setConn, upd_apply, if_true]
    split
    · rename_i e; rw [e]; simp
    · simp
  clear e1
  have hn : g.listenAddr ≠ 0 → ∀ x, pings [.ping ⟨g.listenAddr, x⟩] = 0 := fun hg x => pings_hs _ (fun h => by injection h with h _; exact hg h)
  have none : ∀ t, Outs s1 t (fun _ => []) → ∃ f, Outs s t f ∧ ∀ d, pongs (f d) = 0 ∧ (g.listenAddr ≠ 0 → pings (f d) = 0) :=
    fun t h => ⟨_, k.trans h, fun d => ⟨rfl, fun _ => rfl⟩⟩
  have one : ∀ t x, Outs s1 t (fun d => if d = c then [.ping ⟨g.listenAddr, x⟩] else []) → ∃ f, Outs s t f ∧ ∀ d, pongs (f d) = 0 ∧ (g.listenAddr ≠ 0 → pings (f d) = 0) := by
    intro t x h
    refine ⟨_, k.trans h, fun d => ?_⟩
    by_cases e : d = c
    · simp only [e, List.nil_append, if_true]; exact ⟨pongs_ping _, fun hg => hn hg x⟩
    · simp [e, pongs_nil, pings_nil]
  simp only
  split
  · split
    · split
      · exact one _ _ (.send s1 c _)
      · exact none _ (.term s1 c)
    · exact one _ _ (fun d => by simpa using ((Outs.setPeer s1 _ _).trans (.send _ c _)) d)
  · split
    · exact none _ (.of_conns rfl)
    · split
      · exact none _ (.refl s1)
      · exact none _ (.term s1 _)

/-- The handshakes that were put off are handshakes. -/
structure Clean (s : St) : Prop where
  posted : ∀ e ∈ s.posted, e.1.claimed ≠ 0
  pre : ∀ p h, (s.peers p).preempt = some h → h.claimed ≠ 0

theorem clean_init : Clean init := ⟨by simp [init], by simp [init, newPeer]⟩

/-- What a step sends. -/
def Sends (g : Cfg) (s : St) (a : Act) (t : St) : Prop :=
  ∃ f : Nat → List Msg, (∀ d, d < s.n → (t.conns d).out = (s.conns d).out ++ f d) ∧ (∀ d, s.n ≤ d → d < t.n → (t.conns d).out = []) ∧
    ∀ d, d < s.n → pongs (f d) = (if asks d (s, a) = true then 1 else 0) ∧
      (g.listenAddr ≠ 0 → pings (f d) = (if t.cbs = s.cbs ++ [(d, true)] then 1 else 0) + if beatOn s a = some d then 1 else 0)

theorem Sends.quiet {g : Cfg} {s t : St} {a : Act} (ho : ∀ d, d < s.n → (t.conns d).out = (s.conns d).out) (hc : t.cbs = s.cbs)
    (hn : ∀ d, s.n ≤ d → d < t.n → (t.conns d).out = []) (ha : ∀ c h d, a ≠ .ping c h d) (hb : beatOn s a = none) : Sends g s a t := by
  refine ⟨fun _ => [], fun d hd => by rw [ho d hd]; simp, hn, fun d _ => ⟨?_, fun _ => ?_⟩⟩
  · rw [if_neg]; · rfl
    unfold asks; split
    · rename_i h; exact absurd h (ha _ _ _)
    · simp
  · rw [hc, if_neg (cbs_ne _ _), hb]; rfl

theorem out_step {g : Cfg} {s t : St} {a : Act} (b : Basic s) (k : Clean s) (h : step g s a = some t) : Sends g s a t := by
  have noout : ∀ {t : St} {f : Nat → List Msg}, t.n = s.n → Outs s t f → (∀ d, d < s.n → pongs (f d) = (if asks d (s, a) = true then 1 else 0) ∧
      (g.listenAddr ≠ 0 → pings (f d) = (if t.cbs = s.cbs ++ [(d, true)] then 1 else 0) + if beatOn s a = some d then 1 else 0)) → Sends g s a t :=
    fun hn ho hf => ⟨_, fun d _ => ho d, fun d h1 h2 => by omega, hf⟩
  cases a with
  | addPeer pid =>
    simp only [step, Option.some.injEq] at h; subst h
    unfold addPeer
    split
    · exact .quiet (fun _ _ => rfl) rfl (fun d h1 h2 => by simp only at h2; omega) (by simp) rfl
    · refine .quiet (fun d hd => ?_) rfl (fun d h1 h2 => ?_) (by simp) rfl
      · simp only [upd_apply]; rw [if_neg (by omega)]
      · simp only at h2 ⊢
        rw [upd_apply, if_pos (by omega)]; rfl
  | delPeer pid =>
    simp only [step, Option.some.injEq] at h; subst h
    cases hf : find s pid with
    | none => simp only [delPeer, hf]; exact .quiet (fun _ _ => rfl) rfl (fun d h1 h2 => by simp only at h2; omega) (by simp) rfl
    | some p =>
      have e := del_eff s pid p hf
      refine .quiet (fun d hd => ?_) e.cbs (fun d h1 h2 => by rw [e.n] at h2; omega) (by simp) rfl
      simp only [delPeer, hf]
      show ((unlink (unlink (dispTerminate? (dispTerminate? (dispTerminate (unlink s (some (s.peers p).conn)) (s.peers p).conn) (s.peers p).inbound) (s.peers p).outbound) (s.peers p).inbound) (s.peers p).outbound).conns d).out = _
      have := ((((((Outs.unlink s (some (s.peers p).conn)).trans (.term _ (s.peers p).conn)).trans (.term? _ (s.peers p).inbound)).trans
        (.term? _ (s.peers p).outbound)).trans (.unlink _ (s.peers p).inbound)).trans (.unlink _ (s.peers p).outbound)) d
      simpa using this
  | setAddr pid v =>
    simp only [step, Option.some.injEq] at h; subst h
    unfold setPeerAddr
    split <;> exact .quiet (fun _ _ => rfl) rfl (fun d h1 h2 => by simp only [setPeer] at h2; omega) (by simp) rfl
  | connPeer pid n =>
    simp only [step, Option.some.injEq] at h; subst h
    have e : (connPeer s pid n).n = s.n ∧ (connPeer s pid n).cbs = s.cbs := by
      cases dial_eff s pid n with
      | err e h ht => rw [ht]; exact ⟨rfl, rfl⟩
      | ok p hf ha k => exact ⟨k.n, k.cbs⟩
    refine .quiet (fun d hd => ?_) e.2 (fun d h1 h2 => by rw [e.1] at h2; omega) (by simp) rfl
    unfold connPeer
    split
    · rfl
    simp only
    split
    · rfl
    split
    · rfl
    · rw [out_term]; rfl
    · rfl
  | accept a cert =>
    simp only [step] at h; split at h <;> simp at h; subst h
    refine .quiet (fun d hd => ?_) rfl (fun d h1 h2 => ?_) (by simp) rfl
    · simp only [upd_apply]; rw [if_neg (by omega)]
    · simp only at h2 ⊢
      rw [upd_apply, if_pos (by omega)]; rfl
  | connect a =>
    simp only [step, Option.some.injEq] at h; subst h
    refine .quiet (fun d hd => ?_) rfl (fun d h1 h2 => ?_) (by simp) rfl
    · simp only [upd_apply]; rw [if_neg (by omega)]
    · simp only at h2 ⊢
      rw [upd_apply, if_pos (by omega)]; rfl
  | established c cert draw =>
    simp only [step] at h
    split at h
    · injection h with h
      have e := est_eff g s c cert draw
      obtain ⟨f, hf, hp⟩ := est_outs g s c cert draw
      rw [h] at e hf
      refine noout e.n hf (fun d _ => ⟨?_, fun hg => ?_⟩)
      · rw [(hp d).1]; simp [asks]
      · rw [(hp d).2 hg, e.cbs, if_neg (cbs_ne _ _)]; simp [beatOn]
    · cases h
  | ping c x draw =>
    simp only [step] at h
    split at h
    · rename_i hc
      injection h with h
      obtain ⟨f, hf, hp⟩ := ping_outs g s c x draw
      have hn : (pingClosure g s c x draw).n = s.n := by
        cases ping_eff g s c x draw with
        | nop e => exact e.n
        | unknown _ _ _ _ e => rw [e]; rfl
        | preempt _ _ _ e => exact e.n
        | reject _ _ _ _ e _ => exact e.n
        | accept _ _ _ _ e => exact e.n
      rw [h] at hf hp hn
      refine noout hn hf (fun d _ => ⟨?_, fun hg => ?_⟩)
      · rw [(hp d).1]
        by_cases e : d = c
        · subst e; simp [asks, and_comm]
        · have : ¬ c = d := fun h => e h.symm
          simp [asks, e, this]
      · rw [(hp d).2]; simp [beatOn]
    · cases h
  | pong c x draw =>
    simp only [step] at h
    split at h
    · injection h with h
      obtain ⟨f, hf, hp⟩ := pong_outs g s c x draw
      have hn : (pongClosure g s c x draw).n = s.n := by
        cases pong_eff g s c x draw with
        | nop e => exact e.n
        | reject p _ _ e _ => exact e.n
        | accept p _ _ e => exact e.n
        | ub p hp hu e hz => obtain ⟨v, e | e, e2⟩ := e <;> rw [e2] <;> exact e.n
        | wait _ _ _ _ e => exact e.n
        | beat _ _ _ _ _ _ e => exact e.n
        | beatUb p hp _ _ hd e hz => obtain ⟨v, e, e2⟩ := e; rw [e2]; exact e.n
      rw [h] at hf hp hn
      refine noout hn hf (fun d _ => ⟨?_, fun hg => (hp d).2⟩)
      rw [(hp d).1]; simp [asks]
    · cases h
  | deferred draw =>
    simp only [step] at h
    split at h
    · cases h
    · rename_i x c rest he
      have hz := k.posted (x, some c) (by rw [he]; exact List.mem_cons_self)
      simp only at hz
      injection h with h
      obtain ⟨f, hf, hp⟩ := ping_outs g { s with posted := rest } c x draw
      have hn : (pingClosure g { s with posted := rest } c x draw).n = s.n := by
        cases ping_eff g { s with posted := rest } c x draw with
        | nop e => exact e.n
        | unknown _ _ _ _ e => rw [e]; rfl
        | preempt _ _ _ e => exact e.n
        | reject _ _ _ _ e _ => exact e.n
        | accept _ _ _ _ e => exact e.n
      rw [h] at hf hp hn
      refine noout hn hf (fun d _ => ⟨?_, fun hg => ?_⟩)
      · rw [(hp d).1]; simp [asks, hz]
      · rw [(hp d).2]; simp [beatOn]
    · injection h with h; subst h
      exact .quiet (fun _ _ => rfl) rfl (fun d h1 h2 => by simp only at h2; omega) (by simp) rfl
  | lost c =>
    simp only [step] at h; split at h <;> simp at h; subst h
    refine .quiet (fun d hd => ?_) rfl (fun d h1 h2 => by simp only [setConn] at h2; omega) (by simp) rfl
    simp only [setConn, upd_apply]; split
    · rename_i e; rw [e]
    · rfl
  | teardown c =>
    simp only [step] at h
    split at h
    · injection h with h
      have e := tear_eff s c
      rw [h] at e
      refine noout (f := fun _ => []) e.1.n (fun d => ?_) (fun d _ => ⟨by simp [asks, pongs_nil], fun _ => ?_⟩)
      · rw [e.1.conns, upd_apply]; split
        · rename_i e; rw [e]; simp
        · simp
      · have : t.cbs ≠ s.cbs ++ [(d, true)] := by
          cases e.2 with
          | nobody _ _ _ hc => rw [hc]; exact cbs_ne _ _
          | ub _ _ _ _ _ _ hc => rw [hc]; exact cbs_ne _ _
          | preempt _ _ _ _ _ _ _ _ hc => rw [hc]; intro h; have := cbs_inj h; simp at this
          | backoff _ _ _ _ _ _ _ hc => rw [hc]; intro h; have := cbs_inj h; simp at this
        rw [if_neg this]; simp [beatOn, pings_nil]
    · cases h
  | retry p =>
    simp only [step] at h
    split at h
    · injection h with h
      have e := retry_eff s p
      rw [h] at e
      have hout : ∀ d, (t.conns d).out = (upd s.conns s.n { newConn (s.peers p).addr 0 true with peer := some p, manual := false } d).out := by
        intro d
        rw [← h]
        unfold retryTimer
        simp only
        have := (Outs.term? { s with
          n := s.n + 1
          conns := upd s.conns s.n { newConn (s.peers p).addr 0 true with peer := some p, manual := false } } (s.peers p).outbound) d
        exact this.trans (List.append_nil _)
      refine .quiet (fun d hd => ?_) e.cbs (fun d h1 h2 => ?_) (by simp) rfl
      · rw [hout, upd_apply, if_neg (by omega)]
      · rw [e.n] at h2
        rw [hout, upd_apply, if_pos (by omega)]; rfl
    · cases h
  | pingTimer p =>
    simp only [step] at h
    split at h
    · injection h with h
      have e := timer_eff s p
      obtain ⟨f, hf, hp⟩ := timer_outs s p
      rw [h] at e hf
      have hn : t.n = s.n ∧ t.cbs = s.cbs := by
        cases e with
        | wait _ e => exact ⟨e.n, e.cbs⟩
        | beat _ _ _ e => exact ⟨e.n, e.cbs⟩
        | ub hu e => obtain ⟨v, x, e, e2, _⟩ := e; rw [e2]; exact ⟨e.n, e.cbs⟩
      refine noout hn.1 hf (fun d _ => ⟨?_, fun hg => ?_⟩)
      · rw [(hp d).1]; simp [asks]
      · rw [(hp d).2, hn.2, if_neg (cbs_ne _ _)]; simp
    · cases h

theorem clean_step {g : Cfg} {s t : St} {a : Act} (b : Basic s) (k : Clean s) (h : step g s a = some t) : Clean t := by
  constructor
  · intro e he
    rcases posted_step h with hp | ⟨c, _, q, x, hp, hx⟩ | ⟨x, hx⟩
    · rw [hp] at he; exact k.posted e he
    · rw [hp] at he
      rcases List.mem_append.mp he with he | he
      · exact k.posted e he
      · simp only [List.mem_singleton] at he; rw [he]; exact k.pre q x hx
    · exact k.posted e (by rw [hx]; exact List.mem_cons_of_mem _ he)
  · intro p x hx
    have e := pstep b h p
    generalize t.peers p = y at e hx
    have old := k.pre p x
    cases e with
    | new pid ha hq => simp [newPeer] at hx
    | preempt c y hi hp hst hf hz => simp only [Option.some.injEq] at hx; rw [← hx]; exact hz
    | takeover => simp at hx
    | redial pid n ha hf hv => exact old (by simpa [redial] using hx)
    | fin => exact old (by simpa [finished] using hx)
    | _ => exact old (by simpa using hx)

/-- `c` is a connection to `p`, was reported connected and has not been torn down. -/
structure Live (s : St) (c p : Nat) : Prop where
  torn : (s.conns c).torn = false
  peer : (s.conns c).peer = some p
  cbs : (c, true) ∈ s.cbs

/-- A peer that is not disconnected waits for the timer or for the answer. -/
def Waits (x : Peer) : Prop := x.state ≠ .disconnected → x.chosen = some x.conn ∧
    ∃ e w, x.pingTimerOk = some e ∧ x.pongOk = some w ∧ (e && w) = false ∧ (e = false → x.pingArmed = true ∨ x.state = .reset)

structure Pulse (s : St) : Prop where
  live : ∀ c p, Live s c p → (s.peers p).state ≠ .disconnected
  up : ∀ p, Waits (s.peers p)
  armed : ∀ p, (s.peers p).pingArmed = true → (s.peers p).state ≠ .disconnected

theorem pulse_init : Pulse init := by
  refine ⟨fun c p h => ?_, fun p h => ?_, fun p h => ?_⟩
  · have := h.cbs; simp [init] at this
  · simp [init, newPeer] at h
  · simp [init, newPeer] at h

theorem pong_dead {g : Cfg} {s t : St} {c : Nat} {h : Hs} {d : BitVec 16} (hs : step g s (.pong c h d) = some t)
    (ht : (s.conns c).term = true) : t = s := by
  simp only [step] at hs
  split at hs
  · injection hs with hs
    rw [← hs]; unfold pongClosure; rw [if_pos ht]
  · cases hs

theorem one_up {g : Cfg} {s t : St} {a : Act} (b : Basic s) (h : step g s a = some t) (p : Nat) (up : Waits (s.peers p)) :
    Waits (t.peers p) := by
  have e := pstep b h p
  generalize t.peers p = y at e ⊢
  unfold Waits at up ⊢
  cases e with
  | same => exact up
  | new pid ha hq => simp [newPeer]
  | free pid ha => exact up
  | addr pid v ha => exact up
  | redial pid n ha hf hv =>
    intro hst
    have hst' : (s.peers p).state ≠ .disconnected := by
      intro e; simp [redial, e] at hst
    obtain ⟨h1, x, y, h2, h3, h4, h5⟩ := up hst'
    refine ⟨h1, x, y, h2, h3, h4, fun _ => .inr ?_⟩
    simp only [redial]
    split
    · rfl
    · rename_i hc
      cases e : (s.peers p).state <;> simp_all
  | nonce d => simpa using up
  | preempt c x hi hp hst => exact up
  | reject d i o' hst hi => simp [hst]
  | fin d i o' c hst hcbs => intro _; exact ⟨rfl, false, false, rfl, rfl, rfl, fun _ => .inl rfl⟩
  | pong c x d ha hp hz ho =>
    intro hst
    obtain ⟨h1, x, y, h2, h3, h4, h5⟩ := up hst
    refine ⟨h1, x, true, h2, rfl, ?_, h5⟩
    cases x with
    | false => rfl
    | true => exact absurd h2 ho
  | beat ha => intro hst; exact ⟨(up hst).1, false, false, rfl, rfl, rfl, fun _ => .inl rfl⟩
  | wait ha ho =>
    intro hst
    obtain ⟨h1, x, y, h2, h3, h4, h5⟩ := up hst
    refine ⟨h1, true, y, rfl, h3, ?_, by simp⟩
    cases y with
    | false => rfl
    | true => exact absurd h3 ho
  | takeover c x ha hp => simp
  | backoff c ha hp => simp
  | retry ha => exact up

theorem pulse_step {who : Nat → Nat} {g : Cfg} {s t : St} {a : Act} (b : Basic s) (hcl : ∀ e ∈ s.cbs, e.1 < s.n) (o : Ord who s)
    (k : Pulse s) (hpol : Polite s a) (h : step g s a = some t) : Pulse t := by
  have htt : ∀ c, c < s.n → (s.conns c).term = false → (s.conns c).torn = false := by
    intro c hc ht
    cases e : (s.conns c).torn with
    | false => rfl
    | true => rw [o.term c hc e] at ht; cases ht
  -- away from teardowns, a peer stays up
  have stay : (∀ c, a ≠ .teardown c) → ∀ p, p < s.m → (s.peers p).state ≠ .disconnected → (t.peers p).state ≠ .disconnected := by
    intro ha p hp hst
    have e := pstep b h p
    generalize t.peers p = y at e ⊢
    cases e with
    | new pid ha hq => omega
    | redial pid n ha hf hv => simp only [redial]; split <;> simp_all
    | nonce d => simpa using hst
    | reject d i o' hst' hi => exact absurd hst' hst
    | fin d i o' c hst hcbs => simp [finished]
    | takeover c x ha' hp => exact absurd ha' (ha c)
    | backoff c ha' hp => exact absurd ha' (ha c)
    | _ => exact hst
  refine ⟨fun c p hl => ?_, fun p => one_up b h p (k.up p), fun p hp => ?_⟩
  · have hln := life_step h
    have old : Live s c p → (t.peers p).state ≠ .disconnected := by
      intro hl0
      have hst := k.live c p hl0
      have hb := b.link c p hl0.peer
      by_cases ha : ∃ c', a = .teardown c'
      · obtain ⟨c', ha⟩ := ha
        subst ha
        have htc : c ≠ c' := by
          intro e; subst e
          have := ((hln.torn c hb.1).mpr (.inr rfl))
          rw [hl.torn] at this; cases this
        simp only [step] at h
        split at h
        · rename_i hg
          injection h with h
          have e := (tear_eff s c').2
          rw [h] at e
          have hne : ∀ q, (s.conns c').peer = some q → p ≠ q := by
            intro q hq e
            subst e
            have := (o.up p hb.2 (o.link c p hl0.torn hl0.peer).1 hst).2.2.2.1
            have h1 := this c hl0.torn hl0.peer
            have h2 := this c' hg.2.2 hq
            exact htc (by rw [h1, h2])
          cases e with
          | nobody _ hp => rw [hp]; exact hst
          | ub _ _ _ _ hp => rw [hp]; exact hst
          | preempt q x hq _ _ _ hp => rw [hp, upd_apply, if_neg (hne q hq)]; exact hst
          | backoff q hq _ _ _ hp => rw [hp, upd_apply, if_neg (hne q hq)]; exact hst
        · cases h
      · exact stay (fun c e => ha ⟨c, e⟩) p hb.2 hst
    have htorn : c < s.n → (s.conns c).torn = false := by
      intro hc
      cases e : (s.conns c).torn with
      | false => rfl
      | true =>
        have := (hln.torn c hc).mpr (.inl e)
        rw [hl.torn] at this; cases this
    have h1 := hl.cbs
    have h2 := hl.peer
    cases step_eff h with
    | quiet hcbs hconn hlink =>
      rw [hcbs] at h1
      exact old ⟨htorn (hcl _ h1), hlink c p h2, h1⟩
    | dial q ha hcbs hconn hlink hnew =>
      rw [hcbs] at h1
      have := hcl _ h1
      simp only at this
      rw [hlink, if_neg (by omega)] at h2
      exact old ⟨htorn this, h2, h1⟩
    | add pid ha hcbs hconn hlink hnew =>
      rw [hcbs] at h1
      have := hcl _ h1
      simp only at this
      rw [hlink, if_neg (by omega)] at h2
      exact old ⟨htorn this, h2, h1⟩
    | accept q c' pid hi hf hst htm hcbs hconn hlink hup hl' =>
      rcases hlink c p h2 with ⟨_, e⟩ | h4
      · rw [e, hup]; simp
      · rw [hcbs] at h1
        rcases List.mem_append.mp h1 with h1 | h1
        · exact old ⟨htorn (hcl _ h1), h4, h1⟩
        · simp only [List.mem_singleton, Prod.mk.injEq, and_true] at h1
          subst h1
          rw [hl'] at h2
          injection h2 with h2
          rw [← h2, hup]; simp
    | down q c' ha hp hcbs hconn hlink hdown =>
      rw [hcbs] at h1
      rcases List.mem_append.mp h1 with h1 | h1
      · rw [hlink] at h2
        exact old ⟨htorn (hcl _ h1), h2, h1⟩
      · simp at h1
  · by_cases hd : ∃ c x d, a = .pong c x d ∧ (s.conns c).term = true
    · obtain ⟨c, x, d, ha, ht⟩ := hd
      subst ha
      rw [pong_dead h ht] at hp ⊢
      exact k.armed p hp
    have e := pstep b h p
    have old := k.armed p
    generalize t.peers p = y at e hp ⊢
    cases e with
    | new pid ha hq => simp [newPeer] at hp
    | redial pid n ha hf hv => simp [redial] at hp
    | nonce d => simpa using old (by simpa using hp)
    | reject d i o' hst' hi => exact absurd hst' (old (by simpa using hp))
    | fin d i o' c hst hcbs => simp [finished]
    | beat ha =>
      rcases ha with ⟨c, x, d, ha, hp, hz⟩ | ⟨_, ha⟩
      · have hc := (b.link c p hp).1
        have ht : (s.conns c).term = false := by
          cases e : (s.conns c).term with
          | false => rfl
          | true => exact absurd ⟨c, x, d, ha, e⟩ hd
        exact k.live c p ⟨htt c hc ht, hp, hpol.1 c x d ha hz⟩
      · exact old ha
    | wait ha => simp at hp
    | takeover c x ha hq =>
      have h1 : (disc (s.peers p)).pingArmed = true := hp
      have h2 := old (disc_pingArmed h1)
      simp [disc, h2] at h1
    | backoff c ha hq =>
      have h1 : (disc (s.peers p)).pingArmed = true := by simpa using hp
      have h2 := old (disc_pingArmed h1)
      simp [disc, h2] at h1
    | _ => exact old hp

/-- What the observer of `c` must know. -/
def flags (s : St) (c : Nat) : Option (Bool × Bool) :=
  if (s.conns c).torn = false ∧ (c, true) ∈ s.cbs then
    match (s.conns c).peer with
    | none => none
    | some p => match (s.peers p).pingTimerOk, (s.peers p).pongOk with
      | some e, some w => some (e, w)
      | _, _ => none
  else none

theorem flags_live {s : St} {c p : Nat} {e w : Bool} (h : Live s c p) (he : (s.peers p).pingTimerOk = some e)
    (hw : (s.peers p).pongOk = some w) : flags s c = some (e, w) := by
  unfold flags
  rw [if_pos ⟨h.torn, h.cbs⟩, h.peer]
  simp only [he, hw]

theorem flags_dead {s : St} {c : Nat} (h : ∀ p, ¬ Live s c p) : flags s c = none := by
  unfold flags
  split
  · rename_i hc
    split
    · rfl
    · rename_i p hp; exact absurd ⟨hc.1, hp, hc.2⟩ (h p)
  · rfl

theorem beat_flags (s : St) (p : Nat) :
    ((resetSendPing s p).peers p).pingTimerOk = some false ∧ ((resetSendPing s p).peers p).pongOk = some false := by
  unfold resetSendPing
  simp only
  split <;> simp [setPeer, send, setConn]

/-- A heartbeat answer. -/
theorem pong_heart {g : Cfg} {s t : St} {c p : Nat} {x : Hs} {d : BitVec 16} {e : Bool} (h : step g s (.pong c x d) = some t)
    (ht : (s.conns c).term = false) (hz : x.claimed = 0) (hp : (s.conns c).peer = some p) (hf : (s.peers p).freed = false)
    (he : (s.peers p).pingTimerOk = some e) : t.cbs = s.cbs ∧
    (t.peers p).pingTimerOk = some false ∧ (t.peers p).pongOk = some (!e) := by
  simp only [step] at h
  split at h
  rotate_left
  · cases h
  injection h with h
  unfold pongClosure at h
  rw [if_neg (by rw [ht]; simp), if_neg (by simp [hz])] at h
  simp only [hp] at h
  rw [if_neg (by rw [hf]; simp)] at h
  have e1 : ((setPeer s p { s.peers p with pongOk := some true }).peers p).pingTimerOk = some e := by simp [setPeer, he]
  have e2 : ((setPeer s p { s.peers p with pongOk := some true }).peers p).pongOk = some true := by simp [setPeer]
  have e3 : (setPeer s p { s.peers p with pongOk := some true }).cbs = s.cbs := rfl
  simp only at h e1 e2 e3
  generalize setPeer s p _ = s1 at *
  cases e with
  | false =>
    simp only [e1] at h
    subst h
    exact ⟨e3, e1, e2⟩
  | true =>
    simp only [e1] at h
    subst h
    exact ⟨by rw [beat_cbs, e3], beat_flags s1 p⟩

theorem watch_new {g : Cfg} {s t : St} {a : Act} {c n : Nat} (b : Basic s) (hcl : ∀ e ∈ s.cbs, e.1 < s.n) (h : step g s a = some t) (hc : s.n ≤ c) :
    watch g c (none, n) (s, a) = (none, n) ∧ flags t c = none := by
  have hr : ∀ v, t.cbs ≠ s.cbs ++ [(c, v)] := by
    intro v
    cases step_eff h with
    | quiet hcbs => rw [hcbs]; exact cbs_ne _ _
    | dial _ _ hcbs => rw [hcbs]; exact cbs_ne _ _
    | add _ _ hcbs => rw [hcbs]; exact cbs_ne _ _
    | accept p c' pid hi hf hst ht hcbs =>
      rw [hcbs]; intro he
      have := cbs_inj he; injection this with h1 _
      have : c' < s.n := by
        unfold identity at hi
        split at hi
        · rename_i c1 x d
          simp only [step] at h
          split at h
          · split at hi
            · simp at hi; omega
            · cases hi
          · cases h
        · split at hi
          · rename_i x c1 rest he
            split at hi
            · simp at hi
              have := b.posted (x, some c1) (by rw [he]; exact List.mem_cons_self) c1 rfl
              omega
            · cases hi
          · cases hi
        · rename_i c1 x d
          simp only [step] at h
          split at h
          · split at hi
            · simp at hi; omega
            · cases hi
          · cases h
        · cases hi
      omega
    | down p c' ha hp hcbs =>
      rw [hcbs]; intro he
      have := cbs_inj he; injection this with h1 _
      have := (b.link c' p hp).1
      omega
  constructor
  · unfold watch
    simp only [h]
    rw [if_neg (hr true)]
    split <;> rfl
  · refine flags_dead (fun p hl => ?_)
    have h1 := hl.cbs
    have no : (c, true) ∉ s.cbs := fun h => by have := hcl _ h; simp only at this; omega
    cases step_eff h with
    | quiet hcbs => rw [hcbs] at h1; exact no h1
    | dial _ _ hcbs => rw [hcbs] at h1; exact no h1
    | add _ _ hcbs => rw [hcbs] at h1; exact no h1
    | accept p c' pid hi hf hst ht hcbs =>
      rw [hcbs] at h1
      rcases List.mem_append.mp h1 with h1 | h1
      · exact no h1
      · simp only [List.mem_singleton] at h1
        exact hr true (by rw [hcbs, h1])
    | down p c' ha hp hcbs =>
      rw [hcbs] at h1
      rcases List.mem_append.mp h1 with h1 | h1
      · exact no h1
      · simp at h1

/-- The links of connections reported connected are kept until they are torn down or their peers are deleted. -/
theorem link_keep {who : Nat → Nat} {g : Cfg} {s t : St} {a : Act} {c p : Nat} (b : Basic s) (o : Ord who s) (k : Pulse s)
    (h : step g s a = some t) (hl : Live s c p) (hd : deletes c (s, a) = false) (hr : t.cbs ≠ s.cbs ++ [(c, true)]) :
    (t.conns c).peer = some p := by
  have hst := k.live c p hl
  have hb := b.link c p hl.peer
  have hlk := o.link c p hl.torn hl.peer
  have hcp : (s.peers p).conn = c := ((o.up p hb.2 hlk.1 hst).2.2.2.1 c hl.torn hl.peer).symm
  have fin : ∀ {q d : Nat} {x : Peer}, (∀ e, (t.conns e).peer = if e = d then some q else
      if x.outbound = some e ∨ x.conn = e then none else (s.conns e).peer) → t.cbs = s.cbs ++ [(d, true)] → find s (s.peers q).id = some q →
      (s.peers q).state = .disconnected → x.conn = (s.peers q).conn →
      (∀ e, x.outbound = some e → e = d ∨ (s.peers q).outbound = some e) → (t.conns c).peer = some p := by
    intro q d x e hcbs hf hq hx ho
    obtain ⟨hqm, _, hqf⟩ := b.find_iff.mp hf
    have hdc : c ≠ d := by intro h; rw [← h] at hcbs; exact hr hcbs
    rw [e, if_neg hdc, if_neg]
    · exact hl.peer
    · rintro (h | h)
      · rcases ho c h with h | h
        · exact hdc h
        · have := o.side q c hqm (.inr h)
          have := b.inj hb.2 hqm hlk.1 hqf (by rw [hlk.2.1, this])
          rw [this] at hst; exact hst hq
      · rw [hx] at h
        have := (o.down q hqm hqf hq).1
        rw [h, hl.torn] at this; cases this
  have ping : ∀ {s0 : St} {c' : Nat} {x : Hs} {d : BitVec 16}, (s0 = s ∨ ∃ rest, s0 = { s with posted := rest }) → t = pingClosure g s0 c' x d →
      (t.conns c).peer = some p := by
    intro s0 c' x d hs he
    have hh : s0.peers = s.peers ∧ s0.conns = s.conns ∧ s0.known = s.known ∧ s0.cbs = s.cbs := by
      rcases hs with e | ⟨r, e⟩ <;> rw [e] <;> exact ⟨rfl, rfl, rfl, rfl⟩
    obtain ⟨h2, h3, h4, h5⟩ := hh
    have hp0 : (s0.conns c).peer = some p := by rw [h3]; exact hl.peer
    have hef := ping_eff g s0 c' x d
    rw [← he] at hef
    cases hef with
    | nop e => rw [e.link]; exact hp0
    | unknown _ _ _ _ e => rw [e]; exact ((same0_term { s0 with unk := s0.unk ++ [(x.claimed, c')] } c').link c).trans hp0
    | preempt q hh hst e => rw [e.link]; exact hp0
    | reject q hh hst hn e ea => rw [e.link]; exact hp0
    | accept q hh hst' hn e =>
      have hf := hh.found
      rw [find_of_known h4] at hf
      have hq := b.find_iff.mp hf
      have hl' := e.link
      have hc' := e.cbs
      rw [h3] at hl'
      rw [h5] at hc'
      rw [h2] at hst' hl'
      refine fin hl' hc' (by rw [hq.2.1]; exact hf) hst' (by simp) (fun e he => .inr (by simpa using he))
  cases a with
  | addPeer pid =>
    simp only [step, Option.some.injEq] at h; subst h
    unfold addPeer
    split
    · exact hl.peer
    · simp only [upd_apply]; rw [if_neg (by omega)]; exact hl.peer
  | delPeer pid =>
    simp only [step, Option.some.injEq] at h; subst h
    cases hf : find s pid with
    | none => simp only [delPeer, hf]; exact hl.peer
    | some q =>
      have e := del_eff s pid q hf
      have hq := b.find_iff.mp hf
      have hne : (s.peers q).conn ≠ c := by
        intro h; simp [deletes, getPeerConn, hf, h] at hd
      rw [e.link, if_neg]
      · exact hl.peer
      · rintro (h | h)
        · exact hne h
        · have := o.side q c hq.1 h
          have := b.inj hb.2 hq.1 hlk.1 hq.2.2 (by rw [hlk.2.1, this])
          rw [← this] at hne; exact hne hcp
  | setAddr pid v =>
    simp only [step, Option.some.injEq] at h; subst h
    unfold setPeerAddr
    split <;> exact hl.peer
  | connPeer pid n =>
    simp only [step, Option.some.injEq] at h; subst h
    cases dial_eff s pid n with
    | err e h ht => rw [ht]; exact hl.peer
    | ok p hf ha k => rw [k.link]; exact hl.peer
  | accept a cert =>
    simp only [step] at h; split at h <;> simp at h; subst h
    simp only [upd_apply]; rw [if_neg (by omega)]; exact hl.peer
  | connect a =>
    simp only [step, Option.some.injEq] at h; subst h
    simp only [upd_apply]; rw [if_neg (by omega)]; exact hl.peer
  | established c' cert draw =>
    simp only [step] at h
    split at h
    · injection h with h
      have e := est_eff g s c' cert draw
      rw [h] at e
      rw [e.link]; exact hl.peer
    · cases h
  | ping c' x draw =>
    simp only [step] at h
    split at h
    · injection h with h
      exact ping (.inl rfl) h.symm
    · cases h
  | pong c' x draw =>
    simp only [step] at h
    split at h
    · injection h with h
      have e := pong_eff g s c' x draw
      rw [h] at e
      cases e with
      | nop e => rw [e.link]; exact hl.peer
      | reject p _ _ e _ => rw [e.link]; exact hl.peer
      | accept q hh _ e =>
        have hq := b.find_iff.mp hh.found
        refine fin e.link e.cbs (by rw [hq.2.1]; exact hh.found) hh.state (by simp) (fun e he => .inl (by simpa using he.symm))
      | ub q hp hu e hz => obtain ⟨v, e | e, e2⟩ := e <;> rw [e2] <;> exact (e.link c).trans hl.peer
      | wait _ _ _ _ e => rw [e.link]; exact hl.peer
      | beat _ _ _ _ _ _ e => rw [e.link]; exact hl.peer
      | beatUb p hp _ _ hd e hz => obtain ⟨v, e, e2⟩ := e; rw [e2]; exact (e.link c).trans hl.peer
    · cases h
  | deferred draw =>
    simp only [step] at h
    split at h
    · cases h
    · injection h with h
      exact ping (.inr ⟨_, rfl⟩) h.symm
    · injection h with h; subst h; exact hl.peer
  | lost c' =>
    simp only [step] at h; split at h <;> simp at h; subst h
    simp only [setConn, upd_apply]; split
    · rename_i e; rw [← e]; exact hl.peer
    · exact hl.peer
  | teardown c' =>
    simp only [step] at h
    split at h
    · injection h with h
      have e := (tear_eff s c').1
      rw [h] at e
      rw [e.conns, upd_apply]; split
      · rename_i e; rw [← e]; exact hl.peer
      · exact hl.peer
    · cases h
  | retry q =>
    simp only [step] at h
    split at h
    · injection h with h
      have e := retry_eff s q
      rw [h] at e
      rw [e.link, if_neg (by omega)]; exact hl.peer
    · cases h
  | pingTimer q =>
    simp only [step] at h
    split at h
    · injection h with h
      have e := timer_eff s q
      rw [h] at e
      cases e with
      | wait _ e => rw [e.link]; exact hl.peer
      | beat _ _ _ e => rw [e.link]; exact hl.peer
      | ub hu e => obtain ⟨v, x, e, e2, _⟩ := e; rw [e2]; exact (e.link c).trans hl.peer
    · cases h

theorem lastReport_mem {s : St} {c : Nat} {v : Bool} (h : lastReport s c = some v) : (c, v) ∈ s.cbs := by
  unfold lastReport at h
  cases e : (s.cbs.filter (fun e => e.1 = c)).getLast? with
  | none => rw [e] at h; cases h
  | some x =>
    rw [e] at h
    have := List.mem_of_getLast? e
    rw [List.mem_filter] at this
    simp only [Option.map_some, Option.some.injEq] at h
    have h2 := this.2
    simp only [decide_eq_true_eq] at h2
    rw [← h, ← h2]; exact this.1

section
variable {who : Nat → Nat} {g : Cfg} {s t : St} {a : Act}

/-- The connection over which a heartbeat answer comes. -/
theorem answer_live (b : Basic s) (o : Ord who s) (hpol : Polite s a) {c p : Nat} {h : Hs} {d : BitVec 16} (ha : a = .pong c h d)
    (ht : (s.conns c).term = false) (hz : h.claimed = 0) (hp : (s.conns c).peer = some p) : Live s c p ∧ answers c (s, a) = true := by
  have hc := (b.link c p hp).1
  refine ⟨⟨?_, hp, hpol.1 c h d ha hz⟩, by subst ha; simp [answers, hz, ht]⟩
  cases e : (s.conns c).torn with
  | false => rfl
  | true => rw [o.term c hc e] at ht; cases ht

theorem live_conn (b : Basic s) (o : Ord who s) (k : Pulse s) {c p : Nat} (hl : Live s c p) : (s.peers p).conn = c :=
  ((o.up p (b.link c p hl.peer).2 (o.link c p hl.torn hl.peer).1 (k.live c p hl)).2.2.2.1 c hl.torn hl.peer).symm

theorem beat_live (b : Basic s) (o : Ord who s) (k : Pulse s) (hpol : Polite s a) (h : step g s a = some t) {c : Nat} (hb : beatOn s a = some c) :
    ∃ p, Live s c p ∧ (answers c (s, a) = true ∨ expires c (s, a) = true) := by
  unfold beatOn at hb
  split at hb
  · rename_i c' x d
    split at hb
    rotate_left
    · cases hb
    rename_i hc
    split at hb
    rotate_left
    · cases hb
    rename_i p hp
    split at hb
    rotate_left
    · cases hb
    obtain ⟨hl, ha⟩ := answer_live b o hpol rfl hc.1 hc.2 hp
    have := (k.up p (k.live c' p hl)).1
    rw [live_conn b o k hl, hb] at this
    injection this with this
    subst this
    exact ⟨p, hl, .inl ha⟩
  · rename_i p
    split at hb
    rotate_left
    · cases hb
    simp only [step] at h
    split at h
    rotate_left
    · cases h
    rename_i hg
    have hst := k.armed p hg.2.2
    have h1 := (k.up p hst).1
    have h2 := o.up p hg.1 hg.2.1 hst
    rw [hb] at h1
    injection h1 with h1
    rw [← h1] at h2
    exact ⟨p, ⟨h2.1, h2.2.1, lastReport_mem h2.2.2.2.2⟩, .inr (by simp [expires, h2.2.1])⟩
  · cases hb

/-- The flags of a live connection's peer, when the step is not about its heartbeat. -/
theorem flags_keep (b : Basic s) (o : Ord who s) (k : Pulse s) (hpol : Polite s a) (h : step g s a = some t) {c p : Nat} (hl : Live s c p)
    (ha : answers c (s, a) = false) (he : expires c (s, a) = false) :
    (t.peers p).pingTimerOk = (s.peers p).pingTimerOk ∧ (t.peers p).pongOk = (s.peers p).pongOk := by
  have hst := k.live c p hl
  have hb := b.link c p hl.peer
  by_cases hd : ∃ c x d, a = .pong c x d ∧ (s.conns c).term = true
  · obtain ⟨c, x, d, ha, ht⟩ := hd
    subst ha
    rw [pong_dead h ht]; exact ⟨rfl, rfl⟩
  have nopong : ∀ c' x d, a = .pong c' x d → x.claimed = 0 → (s.conns c').peer = some p → False := by
    intro c' x d e hz hp
    have ht : (s.conns c').term = false := by
      cases e' : (s.conns c').term with
      | false => rfl
      | true => exact absurd ⟨c', x, d, e, e'⟩ hd
    obtain ⟨hl', ha'⟩ := answer_live b o hpol e ht hz hp
    have h1 := live_conn b o k hl
    rw [live_conn b o k hl'] at h1
    subst h1
    rw [ha] at ha'; cases ha'
  have notimer : a ≠ .pingTimer p := by
    intro e; subst e; simp [expires, hl.peer] at he
  have e := pstep b h p
  generalize t.peers p = y at e ⊢
  cases e with
  | new pid ha hq => omega
  | redial pid n ha hf hv => exact ⟨rfl, rfl⟩
  | nonce d => simp
  | reject d i o' hst' hi => exact absurd hst' hst
  | fin d i o' c hst' hcbs => exact absurd hst' hst
  | pong c' x d ha hp hz ho => exact (nopong c' x d ha hz hp).elim
  | beat ha =>
    rcases ha with ⟨c', x, d, ha, hp, hz⟩ | ⟨ha, _⟩
    · exact (nopong c' x d ha hz hp).elim
    · exact absurd ha notimer
  | wait ha => exact absurd ha notimer
  | takeover c x ha hp => simp
  | backoff c ha hp => simp
  | _ => exact ⟨rfl, rfl⟩

/-- The observer's knowledge is right, and it counts what is sent. -/
theorem watch_step (b : Basic s) (hcl : ∀ e ∈ s.cbs, e.1 < s.n) (o : Ord who s) (k : Pulse s) (hpol : Polite s a)
    (h : step g s a = some t) (k' : Pulse t) {c n : Nat} (hc : c < s.n) :
    watch g c (flags s c, n) (s, a) = (flags t c,
      n + ((if t.cbs = s.cbs ++ [(c, true)] then 1 else 0) + if beatOn s a = some c then 1 else 0)) := by
  have hlife := life_step h
  unfold watch
  simp only [h]
  -- a step that reports does not beat
  have hrb : t.cbs ≠ s.cbs → beatOn s a ≠ some c := by
    intro hne hb
    obtain ⟨p, hl, hx⟩ := beat_live b o k hpol h hb
    have hb' := b.link c p hl.peer
    obtain ⟨_, e, w, he, hw, _⟩ := k.up p (k.live c p hl)
    rcases hx with hx | hx
    · unfold answers at hx
      split at hx
      · rename_i c' x d ha
        simp only at ha; subst ha
        simp only [Bool.and_eq_true, beq_iff_eq, Bool.not_eq_true'] at hx
        obtain ⟨⟨h1, h2⟩, h3⟩ := hx
        subst h1
        exact hne (pong_heart h h3 h2 hl.peer (o.link c' p hl.torn hl.peer).1 he).1
      · cases hx
    · unfold expires at hx
      split at hx
      · rename_i q ha
        simp only at ha; subst ha
        simp only [step] at h
        split at h
        · injection h with h
          have e := timer_eff s q
          rw [h] at e
          cases e with
          | wait _ e => exact hne e.cbs
          | beat _ _ _ e => exact hne e.cbs
          | ub hu e => obtain ⟨v, x, e, e2, _⟩ := e; rw [e2] at hne; exact hne e.cbs
        · cases h
      · cases hx
  by_cases h1 : t.cbs = s.cbs ++ [(c, true)]
  · rw [if_pos h1, if_pos h1]
    rw [if_neg (hrb (by rw [h1]; exact fun h => cbs_ne _ _ h.symm))]
    have : flags t c = some (false, false) := by
      have hm : (c, true) ∈ t.cbs := by rw [h1]; simp
      cases step_eff h with
      | quiet hcbs => rw [hcbs] at h1; exact absurd h1 (cbs_ne _ _)
      | dial _ _ hcbs => rw [hcbs] at h1; exact absurd h1 (cbs_ne _ _)
      | add _ _ hcbs => rw [hcbs] at h1; exact absurd h1 (cbs_ne _ _)
      | down _ _ _ _ hcbs => rw [hcbs] at h1; have := cbs_inj h1; simp at this
      | accept p c' pid hi hf hst ht hcbs hconn hlink hup hl =>
        rw [hcbs] at h1
        have := cbs_inj h1
        injection this with this _
        subst this
        have htorn : (t.conns c').torn = false := by
          cases e : (t.conns c').torn with
          | false => rfl
          | true =>
            rcases (hlife.torn c' hc).mp e with h | h
            · rw [o.term c' hc h] at ht; cases ht
            · subst h; simp [identity] at hi
        have hfl : (t.peers p).pingTimerOk = some false ∧ (t.peers p).pongOk = some false := by
          have e := pstep b h p
          generalize t.peers p = y at e hup ⊢
          cases e with
          | fin d i o' c hst' hcbs => exact ⟨rfl, rfl⟩
          | new pid ha hq => simp [newPeer] at hup
          | redial pid n ha hf hv => simp [redial, hst] at hup
          | nonce d => simp [hst] at hup
          | reject d i o' hst' hi => simp [hst] at hup
          | takeover c x ha hp => simp at hup
          | backoff c ha hp => simp at hup
          | _ => simp [hst] at hup
        exact flags_live ⟨htorn, hl, hm⟩ hfl.1 hfl.2
    rw [this]
  rw [if_neg h1, if_neg h1]
  by_cases h2 : t.cbs = s.cbs ++ [(c, false)] ∨ deletes c (s, a) = true
  · rw [if_pos h2]
    have hb : beatOn s a ≠ some c := by
      rcases h2 with h2 | h2
      · exact hrb (by rw [h2]; exact fun h => cbs_ne _ _ h.symm)
      · unfold deletes at h2
        split at h2
        · rename_i pid ha; simp only at ha; subst ha; simp [beatOn]
        · cases h2
    rw [if_neg hb]
    have : flags t c = none := by
      refine flags_dead (fun p hl => ?_)
      rcases h2 with h2 | h2
      · cases step_eff h with
        | quiet hcbs => rw [hcbs] at h2; exact absurd h2 (cbs_ne _ _)
        | dial _ _ hcbs => rw [hcbs] at h2; exact absurd h2 (cbs_ne _ _)
        | add _ _ hcbs => rw [hcbs] at h2; exact absurd h2 (cbs_ne _ _)
        | accept _ _ _ _ _ _ _ hcbs => rw [hcbs] at h2; have := cbs_inj h2; simp at this
        | down q c' ha hp hcbs =>
          rw [hcbs] at h2
          have := cbs_inj h2
          injection this with this _
          subst this
          have := (hlife.torn c' hc).mpr (.inr ha)
          rw [hl.torn] at this; cases this
      · unfold deletes at h2
        split at h2
        · rename_i pid ha; simp only at ha; subst ha
          simp only [step, Option.some.injEq] at h; subst h
          simp only [beq_iff_eq, getPeerConn, Option.map_eq_some_iff] at h2
          obtain ⟨q, hq, hqc⟩ := h2
          have := hl.peer
          rw [(del_eff s pid q hq).link, if_pos (.inl hqc)] at this; cases this
        · cases h2
    rw [this]; rfl
  rw [if_neg h2]
  have hdel : deletes c (s, a) = false := by
    cases e : deletes c (s, a) with
    | false => rfl
    | true => exact absurd (.inr e) h2
  by_cases hl : ∃ p, Live s c p
  · obtain ⟨p, hl⟩ := hl
    have hb := b.link c p hl.peer
    have hst := k.live c p hl
    have hlk := o.link c p hl.torn hl.peer
    obtain ⟨hch, e, w, he, hw, hew, _⟩ := k.up p hst
    rw [live_conn b o k hl] at hch
    rw [flags_live hl he hw]
    simp only
    have hl' : Live t c p := by
      refine ⟨?_, link_keep b o k h hl hdel h1, ?_⟩
      · cases ht : (t.conns c).torn with
        | false => rfl
        | true =>
          rcases (hlife.torn c hb.1).mp ht with h3 | h3
          · rw [hl.torn] at h3; cases h3
          · exfalso
            subst h3
            simp only [step] at h
            split at h
            · injection h with h
              have e := (tear_eff s c).2
              rw [h] at e
              cases e with
              | nobody hp =>
                rcases hp with hp | ⟨hp, hp'⟩
                · rw [hl.peer] at hp; cases hp
                · rw [hlk.2.2 hp] at hp'; cases hp'
              | ub q hp _ hf =>
                rw [hl.peer] at hp; injection hp with hp; subst hp
                rw [hlk.1] at hf; cases hf
              | preempt _ _ _ _ _ _ _ _ hc => exact h2 (.inl hc)
              | backoff _ _ _ _ _ _ _ hc => exact h2 (.inl hc)
            · cases h
      · have := hl.cbs
        cases step_eff h with
        | quiet hcbs => rw [hcbs]; exact this
        | dial _ _ hcbs => rw [hcbs]; exact this
        | add _ _ hcbs => rw [hcbs]; exact this
        | accept _ _ _ _ _ _ _ hcbs => rw [hcbs]; exact List.mem_append_left _ this
        | down _ _ _ _ hcbs => rw [hcbs]; exact List.mem_append_left _ this
    cases ha : answers c (s, a) with
    | true =>
      have hx : expires c (s, a) = false := by
        unfold answers at ha
        split at ha
        · rename_i c' x d e; simp only at e; subst e; rfl
        · cases ha
      unfold answers at ha
      split at ha
      rotate_left
      · cases ha
      rename_i c' x d ha'
      simp only at ha'; subst ha'
      simp only [Bool.and_eq_true, beq_iff_eq, Bool.not_eq_true'] at ha
      obtain ⟨⟨h3, h4⟩, h5⟩ := ha
      subst h3
      have hp := pong_heart h h5 h4 hl.peer hlk.1 he
      rw [flags_live hl' hp.2.1 hp.2.2, hx]
      have hbo : beatOn s (.pong c' x d) = if e = true then some c' else none := by
        simp [beatOn, h5, h4, hl.peer, hlk.1, he, hch]
      rw [hbo]
      cases e <;> simp
    | false =>
      cases hx : expires c (s, a) with
      | true =>
        unfold expires at hx
        split at hx
        rotate_left
        · cases hx
        rename_i q hq
        simp only at hq; subst hq
        simp only [beq_iff_eq] at hx
        rw [hl.peer] at hx
        injection hx with hx
        subst hx
        have hbo : beatOn s (.pingTimer p) = if w = true then some c else none := by
          simp [beatOn, hw, hch]
        rw [hbo]
        simp only [step] at h
        split at h
        rotate_left
        · cases h
        injection h with h
        have ef := timer_eff s p
        rw [h] at ef
        cases ef with
        | wait h3 e' =>
          rw [hw] at h3; injection h3 with h3; subst h3
          have : t.peers p = { s.peers p with pingTimerOk := some true, pingArmed := false } := by rw [e'.peers, upd_self]
          rw [flags_live hl' (e := true) (w := false) (by rw [this]) (by rw [this]; exact hw)]
          cases e <;> simp
        | beat d h3 hd e' =>
          rw [hw] at h3; injection h3 with h3; subst h3
          have : t.peers p = { s.peers p with pingArmed := true, pingTimerOk := some false, pongOk := some false } := by rw [e'.peers, upd_self]
          rw [flags_live hl' (e := false) (w := false) (by rw [this]) (by rw [this])]
          cases e <;> simp
        | ub hu =>
          rcases hu with hu | hu
          · rw [hw] at hu; cases hu
          · rw [hch] at hu; cases hu
      | false =>
        obtain ⟨f1, f2⟩ := flags_keep b o k hpol h hl ha hx
        rw [flags_live hl' (f1.trans he) (f2.trans hw)]
        have hbo : beatOn s a ≠ some c := by
          intro hb
          obtain ⟨q, _, h3⟩ := beat_live b o k hpol h hb
          rw [ha, hx] at h3
          simp at h3
        rw [if_neg hbo]
        simp [hew]
  · have hd := flags_dead (fun p h => hl ⟨p, h⟩)
    rw [hd]
    simp only
    have hbo : beatOn s a ≠ some c := by
      intro hb
      obtain ⟨q, h3, _⟩ := beat_live b o k hpol h hb
      exact hl ⟨q, h3⟩
    rw [if_neg hbo]
    have : flags t c = none := by
      refine flags_dead (fun p hl' => ?_)
      have hm := hl'.cbs
      have htorn : (s.conns c).torn = false := by
        cases e : (s.conns c).torn with
        | false => rfl
        | true =>
          have := (hlife.torn c hc).mpr (.inl e)
          rw [hl'.torn] at this; cases this
      have hpe := hl'.peer
      cases step_eff h with
      | quiet hcbs hconn hlink => rw [hcbs] at hm; exact hl ⟨p, htorn, hlink c p hpe, hm⟩
      | dial q ha hcbs hconn hlink =>
        rw [hcbs] at hm; rw [hlink, if_neg (by omega)] at hpe; exact hl ⟨p, htorn, hpe, hm⟩
      | add q ha hcbs hconn hlink =>
        rw [hcbs] at hm; rw [hlink, if_neg (by omega)] at hpe; exact hl ⟨p, htorn, hpe, hm⟩
      | accept q c' pid hi hf hst ht hcbs hconn hlink =>
        have hne : c ≠ c' := by intro e; rw [← e] at hcbs; exact h1 hcbs
        rw [hcbs] at hm
        rcases List.mem_append.mp hm with hm | hm
        · rcases hlink c p hpe with ⟨h3, _⟩ | h3
          · exact hne h3
          · exact hl ⟨p, htorn, h3, hm⟩
        · simp only [List.mem_singleton, Prod.mk.injEq, and_true] at hm; exact hne hm
      | down q c' ha hp hcbs hconn hlink =>
        rw [hcbs] at hm
        rcases List.mem_append.mp hm with hm | hm
        · rw [hlink] at hpe; exact hl ⟨p, htorn, hpe, hm⟩
        · simp at hm
    rw [this]; rfl

end

end PeerNet
end Salticidae
