import Verif.Lemmas.PeerNet
/-!
The net effect of every step of the node, case by case.
-/
namespace Salticidae
namespace PeerNet

/-- Only `asked` and `out` of connections may differ. -/
structure Same0 (s t : St) : Prop extends Same s t where
  link : ∀ d, (t.conns d).peer = (s.conns d).peer

theorem Same0.refl (s : St) : Same0 s s := ⟨.refl s, fun _ => rfl⟩
theorem Same0.trans {s t u : St} (h : Same0 s t) (k : Same0 t u) : Same0 s u :=
  ⟨h.toSame.trans k.toSame, fun d => (k.link d).trans (h.link d)⟩
theorem same0_send (s : St) (c : Nat) (m : Msg) : Same0 s (send s c m) := ⟨same_send s c m, by simp⟩
theorem same0_term (s : St) (c : Nat) : Same0 s (dispTerminate s c) := ⟨same_term s c, by simp⟩
theorem same0_term? (s : St) (o : Option Nat) : Same0 s (dispTerminate? s o) := ⟨same_term? s o, by simp⟩

/-- Peer `p` becomes `x`; besides, only `asked` and `out` of connections may differ. -/
structure Chg (s t : St) (p : Nat) (x : Peer) : Prop where
  n : t.n = s.n
  m : t.m = s.m
  peers : t.peers = upd s.peers p x
  known : t.known = s.known
  pending : t.pending = s.pending
  posted : t.posted = s.posted
  cbs : t.cbs = s.cbs
  unk : t.unk = s.unk
  errs : t.errs = s.errs
  ub : t.ub = s.ub
  fix : ∀ c, Conn.Fix (t.conns c) (s.conns c)
  link : ∀ d, (t.conns d).peer = (s.conns d).peer

theorem chg_set (s : St) (p : Nat) (x : Peer) : Chg s (setPeer s p x) p x :=
  ⟨rfl, rfl, rfl, rfl, rfl, rfl, rfl, rfl, rfl, rfl, fun _ => .refl _, fun _ => rfl⟩

theorem Chg.then {s t u : St} {p : Nat} {x : Peer} (h : Chg s t p x) (k : Same0 t u) : Chg s u p x :=
  ⟨k.n.trans h.n, k.m.trans h.m, k.peers.trans h.peers, k.known.trans h.known, k.pending.trans h.pending,
   k.posted.trans h.posted, k.cbs.trans h.cbs, k.unk.trans h.unk, k.errs.trans h.errs, k.ub.trans h.ub,
   fun c => (k.fix c).trans (h.fix c), fun d => (k.link d).trans (h.link d)⟩

theorem upd_upd {α : Type} (f : Nat → α) (i : Nat) (v w : α) : upd (upd f i v) i w = upd f i w := by
  funext j; simp only [upd_apply]; split <;> rfl

theorem Chg.chg {s t u : St} {p : Nat} {x y : Peer} (h : Chg s t p x) (k : Chg t u p y) : Chg s u p y :=
  ⟨k.n.trans h.n, k.m.trans h.m, by rw [k.peers, h.peers, upd_upd], k.known.trans h.known, k.pending.trans h.pending,
   k.posted.trans h.posted, k.cbs.trans h.cbs, k.unk.trans h.unk, k.errs.trans h.errs, k.ub.trans h.ub,
   fun c => (k.fix c).trans (h.fix c), fun d => (k.link d).trans (h.link d)⟩

theorem Same0.chg {s t u : St} {p : Nat} {y : Peer} (h : Same0 s t) (k : Chg t u p y) : Chg s u p y :=
  ⟨k.n.trans h.n, k.m.trans h.m, by rw [k.peers, h.peers], k.known.trans h.known, k.pending.trans h.pending,
   k.posted.trans h.posted, k.cbs.trans h.cbs, k.unk.trans h.unk, k.errs.trans h.errs, k.ub.trans h.ub,
   fun c => (k.fix c).trans (h.fix c), fun d => (k.link d).trans (h.link d)⟩

/-- Handshake of `p` completed on `c`: the net effect, from the state before the message. -/
structure Fin (s t : St) (p c : Nat) (x : Peer) : Prop where
  n : t.n = s.n
  m : t.m = s.m
  peers : t.peers = upd s.peers p (finished x c)
  known : t.known = s.known
  pending : t.pending = s.pending.filter (fun e => e.1 ≠ (s.conns c).addr)
  posted : t.posted = s.posted
  cbs : t.cbs = s.cbs ++ [(c, true)]
  unk : t.unk = s.unk
  errs : t.errs = s.errs
  ub : t.ub = s.ub
  fix : ∀ d, Conn.Fix (t.conns d) (s.conns d)
  link : ∀ d, (t.conns d).peer = if d = c then some p else
    if x.outbound = some d ∨ x.conn = d then none else (s.conns d).peer

theorem Chg.fin {s t : St} {p c : Nat} {x : Peer} (h : Chg s t p x) : Fin s (finishHandshake t p c) p c x := by
  have k := finish_spec t p c
  have hp : t.peers p = x := by rw [h.peers, upd_self]
  refine ⟨k.n.trans h.n, k.m.trans h.m, by rw [k.peers, hp, h.peers, upd_upd], k.known.trans h.known, ?_,
    k.posted.trans h.posted, by rw [k.cbs, h.cbs], k.unk.trans h.unk, k.errs.trans h.errs, k.ub.trans h.ub,
    fun d => (k.fix d).trans (h.fix d), fun d => ?_⟩
  · rw [k.pending, h.pending, (h.fix c).addr]
  · rw [k.link, hp, h.link]

/-- A handshake ping on `c` that gets as far as the peer `p`. -/
structure InHs (g : Cfg) (s : St) (c : Nat) (h : Hs) (p : Nat) : Prop where
  term : (s.conns c).term = false
  claimed : h.claimed ≠ 0
  passive : (s.conns c).active = false
  found : find s (pidOf g (s.conns c) h.claimed) = some p
  nonce : h.nonce ≠ 0

/-- A handshake pong on `c` that gets as far as the peer `p`. -/
structure OutHs (g : Cfg) (s : St) (c : Nat) (h : Hs) (p : Nat) : Prop where
  term : (s.conns c).term = false
  claimed : h.claimed ≠ 0
  active : (s.conns c).active = true
  found : find s (pidOf g (s.conns c) (s.conns c).addr) = some p
  addr : (s.peers p).addr = h.claimed
  state : (s.peers p).state = .disconnected

/-- What the closure of ping_handler does. -/
inductive PingEff (g : Cfg) (s : St) (c : Nat) (h : Hs) (draw : BitVec 16) (t : St) : Prop where
  | nop (e : Same0 s t) (hr : (s.conns c).term = true ∨ h.claimed = 0 ∨ (s.conns c).active = true ∨ h.nonce = 0 ∨
      ∃ p, find s (pidOf g (s.conns c) h.claimed) = some p ∧ (s.peers p).state = .reset)
  | unknown (ht : (s.conns c).term = false) (hc : h.claimed ≠ 0) (ha : (s.conns c).active = false)
      (hf : find s (pidOf g (s.conns c) h.claimed) = none)
      (e : t = dispTerminate { s with unk := s.unk ++ [(h.claimed, c)] } c)
  | preempt (p : Nat) (hh : InHs g s c h p) (hs : (s.peers p).state = .connected)
      (e : Chg s t p { s.peers p with preempt := some h, inbound := some c, nonce := passiveNonce })
  | reject (p : Nat) (hh : InHs g s c h p) (hs : (s.peers p).state = .disconnected)
      (hn : ¬ (h.nonce < (getNonce (s.peers p) draw).nonce ∨ (s.peers p).addr = 0))
      (e : Chg s t p { getNonce (s.peers p) draw with inbound := some c }) (ea : (t.conns c).asked = true)
  | accept (p : Nat) (hh : InHs g s c h p) (hs : (s.peers p).state = .disconnected)
      (hn : h.nonce < (getNonce (s.peers p) draw).nonce ∨ (s.peers p).addr = 0)
      (e : Fin s t p c { getNonce (s.peers p) draw with inbound := some c })

theorem getNonce_addr (x : Peer) (d : BitVec 16) : (getNonce x d).addr = x.addr := by unfold getNonce; split <;> rfl

theorem ping_eff (g : Cfg) (s : St) (c : Nat) (h : Hs) (draw : BitVec 16) :
    PingEff g s c h draw (pingClosure g s c h draw) := by
  unfold pingClosure
  split
  · rename_i hr; exact .nop (.refl s) (.inl hr)
  rename_i ht
  simp only [Bool.not_eq_true] at ht
  split
  · rename_i hr; exact .nop (same0_send _ _ _) (.inr (.inl hr))
  rename_i hc
  split
  · rename_i hr; exact .nop (.refl s) (.inr (.inr (.inl hr)))
  rename_i ha
  simp only [Bool.not_eq_true] at ha
  split
  · rename_i hf; exact .unknown ht hc ha hf rfl
  rename_i p hf
  split
  · rename_i hr; exact .nop (.refl s) (.inr (.inr (.inr (.inl hr))))
  rename_i hn
  have hh : InHs g s c h p := ⟨ht, hc, ha, hf, hn⟩
  split
  · rename_i hs
    exact .preempt p hh hs ((chg_set _ _ _).then (same0_term _ _))
  · rename_i hs; exact .nop (.refl s) (.inr (.inr (.inr (.inr ⟨p, hf, hs⟩))))
  · rename_i hs
    simp only
    have k1 := chg_set s p (getNonce (s.peers p) draw)
    generalize setPeer s p (getNonce (s.peers p) draw) = s1 at *
    have e1 : s1.peers p = getNonce (s.peers p) draw := by rw [k1.peers, upd_self]
    have k2 := k1.then (same0_send s1 c (.pong ⟨g.listenAddr, (s1.peers p).nonce⟩))
    generalize send s1 c (.pong ⟨g.listenAddr, (s1.peers p).nonce⟩) = s2 at *
    have k3 : Chg s (if (s2.peers p).inbound = some c then s2 else dispTerminate? s2 (s2.peers p).inbound) p
        (getNonce (s.peers p) draw) := by
      split
      · exact k2
      · exact k2.then (same0_term? _ _)
    generalize (if (s2.peers p).inbound = some c then s2 else dispTerminate? s2 (s2.peers p).inbound) = s3 at *
    have e3 : s3.peers p = getNonce (s.peers p) draw := by rw [k3.peers, upd_self]
    have k4 := k3.chg (chg_set s3 p { s3.peers p with inbound := some c })
    rw [e3] at k4 ⊢
    have e4 : (setPeer s3 p { getNonce (s.peers p) draw with inbound := some c }).peers p =
        { getNonce (s.peers p) draw with inbound := some c } := by simp [setPeer]
    generalize setPeer s3 p { getNonce (s.peers p) draw with inbound := some c } = s4 at *
    rw [e4]
    simp only [getNonce_addr]
    split
    · rename_i hn
      exact .accept p hh hs hn k4.fin
    · rename_i hn
      refine .reject p hh hs hn (k4.then (same0_term _ _)) ?_
      simp [dispTerminate, setConn]

/-- What the closure of pong_handler does. -/
inductive PongEff (g : Cfg) (s : St) (c : Nat) (h : Hs) (draw : BitVec 16) (t : St) : Prop where
  | nop (e : Same0 s t)
  | reject (p : Nat) (hh : OutHs g s c h p)
      (hn : ¬ (getNonce (s.peers p) draw).nonce < h.nonce)
      (e : Chg s t p { getNonce (s.peers p) draw with outbound := some c }) (ea : (t.conns c).asked = true)
  | accept (p : Nat) (hh : OutHs g s c h p)
      (hn : (getNonce (s.peers p) draw).nonce < h.nonce)
      (e : Fin s t p c { getNonce (s.peers p) draw with outbound := some c })
  | ub (p : Nat) (hp : (s.conns c).peer = some p) (hu : (s.peers p).freed = true ∨ (s.peers p).pingTimerOk = none)
      (e : ∃ u, (Same0 s u ∨ Chg s u p { s.peers p with pongOk := some true }) ∧ t = { u with ub := true })
      (hz : h.claimed = 0) (hs : (s.peers p).pingTimerOk ≠ none → t.peers = s.peers)
  | wait (p : Nat) (hp : (s.conns c).peer = some p) (hf : (s.peers p).freed = false)
      (ho : (s.peers p).pingTimerOk = some false)
      (e : Chg s t p { s.peers p with pongOk := some true }) (hz : h.claimed = 0)
  | beat (p d : Nat) (hp : (s.conns c).peer = some p) (hf : (s.peers p).freed = false)
      (ho : (s.peers p).pingTimerOk = some true) (hd : (s.peers p).chosen = some d)
      (e : Chg s t p { s.peers p with pingArmed := true, pingTimerOk := some false, pongOk := some false })
      (hz : h.claimed = 0)
  | beatUb (p : Nat) (hp : (s.conns c).peer = some p) (hf : (s.peers p).freed = false)
      (ho : (s.peers p).pingTimerOk = some true) (hd : (s.peers p).chosen = none)
      (e : ∃ u, Chg s u p { s.peers p with pingArmed := true, pingTimerOk := some false, pongOk := some false } ∧
        t = { u with ub := true })
      (hz : h.claimed = 0)

theorem getNonce_outbound (x : Peer) (o : Option Nat) (d : BitVec 16) :
    getNonce { x with outbound := o } d = { getNonce x d with outbound := o } := by unfold getNonce; split <;> rfl

theorem beat_eff (s : St) (p : Nat) :
    (∃ d, (s.peers p).chosen = some d ∧
      Chg s (resetSendPing s p) p { s.peers p with pingArmed := true, pingTimerOk := some false, pongOk := some false }) ∨
    ((s.peers p).chosen = none ∧ ∃ u,
      Chg s u p { s.peers p with pingArmed := true, pingTimerOk := some false, pongOk := some false } ∧
      resetSendPing s p = { u with ub := true }) := by
  unfold resetSendPing
  simp only
  split
  · rename_i hd
    exact .inr ⟨hd, _, chg_set _ _ _, rfl⟩
  · rename_i d hd
    exact .inl ⟨d, hd, (chg_set _ _ _).then (same0_send _ _ _)⟩

theorem pong_eff (g : Cfg) (s : St) (c : Nat) (h : Hs) (draw : BitVec 16) :
    PongEff g s c h draw (pongClosure g s c h draw) := by
  unfold pongClosure
  split
  · exact .nop (.refl s)
  rename_i ht
  simp only [Bool.not_eq_true] at ht
  split
  · rename_i hc
    split
    · exact .nop (.refl s)
    rename_i ha
    simp only [Bool.not_eq_true, Bool.not_eq_false'] at ha
    split
    · exact .nop (same0_term _ _)
    rename_i p hf
    split
    · exact .nop (.refl s)
    rename_i hst
    simp only [ne_eq, not_or, Classical.not_not] at hst
    have hh : OutHs g s c h p := ⟨ht, hc, ha, hf, hst.2, hst.1⟩
    simp only
    have k1 : Same0 s (if (s.peers p).outbound = some c then s else dispTerminate? s (s.peers p).outbound) := by
      split
      · exact .refl s
      · exact same0_term? _ _
    generalize (if (s.peers p).outbound = some c then s else dispTerminate? s (s.peers p).outbound) = s1 at *
    have e1 : s1.peers p = s.peers p := by rw [k1.peers]
    have k2 := k1.chg (chg_set s1 p { s1.peers p with outbound := some c })
    have e2 : (setPeer s1 p { s1.peers p with outbound := some c }).peers p = { s.peers p with outbound := some c } := by
      simp [setPeer, e1]
    generalize setPeer s1 p { s1.peers p with outbound := some c } = s2 at *
    have k3 := k2.chg (chg_set s2 p (getNonce (s2.peers p) draw))
    rw [e2, getNonce_outbound] at k3 ⊢
    have e4 : (setPeer s2 p { getNonce (s.peers p) draw with outbound := some c }).peers p =
        { getNonce (s.peers p) draw with outbound := some c } := by simp [setPeer]
    rw [e4]
    split
    · rename_i hn
      exact .accept p hh hn k3.fin
    · rename_i hn
      refine .reject p hh hn (k3.then (same0_term _ _)) ?_
      simp [dispTerminate, setConn]
  · rename_i hz
    simp only [ne_eq, Classical.not_not] at hz
    split
    · exact .nop (.refl s)
    rename_i p hp
    split
    · rename_i hf; exact .ub p hp (.inl hf) ⟨s, .inl (.refl s), rfl⟩ hz (fun _ => rfl)
    rename_i hf
    simp only [Bool.not_eq_true] at hf
    simp only
    have e1 : (setPeer s p { s.peers p with pongOk := some true }).peers p = { s.peers p with pongOk := some true } := by simp [setPeer]
    rw [e1]
    simp only
    split
    · rename_i ho; exact .ub p hp (.inr ho) ⟨_, .inr (chg_set _ _ _), rfl⟩ hz (fun h => absurd ho h)
    · rename_i ho
      have k1 := chg_set s p { s.peers p with pongOk := some true }
      generalize setPeer s p { s.peers p with pongOk := some true } = s1 at *
      rcases beat_eff s1 p with ⟨d, hd, k⟩ | ⟨hd, u, k, e⟩
      · rw [e1] at hd k
        exact .beat p d hp hf ho hd (k1.chg k) hz
      · rw [e1] at hd k
        exact .beatUb p hp hf ho hd ⟨u, k1.chg k, e⟩ hz
    · rename_i ho
      exact .wait p hp hf ho (chg_set _ _ _) hz

/-- What a teardown always does. -/
structure Torn (s t : St) (c : Nat) : Prop where
  n : t.n = s.n
  m : t.m = s.m
  known : t.known = s.known
  pending : t.pending = s.pending.filter (fun e => e.1 ≠ (s.conns c).addr)
  unk : t.unk = s.unk
  errs : t.errs = s.errs
  conns : t.conns = upd s.conns c { s.conns c with torn := true }

inductive TearEff (s : St) (c : Nat) (t : St) : Prop where
  | nobody (hp : (s.conns c).peer = none ∨ ((s.conns c).active = true ∧ (s.conns c).manual = true))
      (hpeers : t.peers = s.peers) (hposted : t.posted = s.posted) (hcbs : t.cbs = s.cbs) (hub : t.ub = s.ub)
  | ub (p : Nat) (hp : (s.conns c).peer = some p) (hm : ((s.conns c).active && (s.conns c).manual) = false)
      (hf : (s.peers p).freed = true)
      (hpeers : t.peers = s.peers) (hposted : t.posted = s.posted) (hcbs : t.cbs = s.cbs) (hub : t.ub = true)
  | preempt (p : Nat) (h : Hs) (hp : (s.conns c).peer = some p) (hm : ((s.conns c).active && (s.conns c).manual) = false)
      (hf : (s.peers p).freed = false) (hh : (s.peers p).preempt = some h)
      (hpeers : t.peers = upd s.peers p { disc (s.peers p) with preempt := none, inbound := none })
      (hposted : t.posted = s.posted ++ [(h, (s.peers p).inbound)]) (hcbs : t.cbs = s.cbs ++ [(c, false)]) (hub : t.ub = s.ub)
  | backoff (p : Nat) (hp : (s.conns c).peer = some p) (hm : ((s.conns c).active && (s.conns c).manual) = false)
      (hf : (s.peers p).freed = false) (hh : (s.peers p).preempt = none)
      (hpeers : t.peers = upd s.peers p (PeerNet.backoff (disc (s.peers p))))
      (hposted : t.posted = s.posted) (hcbs : t.cbs = s.cbs ++ [(c, false)])
      (hub : t.ub = (s.ub || ((PeerNet.backoff (disc (s.peers p))).curNtry != 0 && !(s.peers p).retryInit)))

@[simp] theorem disc_preempt (x : Peer) : (disc x).preempt = x.preempt := by unfold disc; split <;> rfl
@[simp] theorem disc_inbound (x : Peer) : (disc x).inbound = x.inbound := by unfold disc; split <;> rfl
@[simp] theorem disc_freed (x : Peer) : (disc x).freed = x.freed := by unfold disc; split <;> rfl
@[simp] theorem disc_retryInit (x : Peer) : (disc x).retryInit = x.retryInit := by unfold disc; split <;> rfl
@[simp] theorem disc_curNtry (x : Peer) : (disc x).curNtry = x.curNtry := by unfold disc; split <;> rfl
@[simp] theorem disc_ntry (x : Peer) : (disc x).ntry = x.ntry := by unfold disc; split <;> rfl
@[simp] theorem disc_conn (x : Peer) : (disc x).conn = x.conn := by unfold disc; split <;> rfl
@[simp] theorem disc_id (x : Peer) : (disc x).id = x.id := by unfold disc; split <;> rfl
@[simp] theorem disc_chosen (x : Peer) : (disc x).chosen = x.chosen := by unfold disc; split <;> rfl
@[simp] theorem disc_dials (x : Peer) : (disc x).dials = x.dials := by unfold disc; split <;> rfl
@[simp] theorem disc_retryArmed (x : Peer) : (disc x).retryArmed = x.retryArmed := by unfold disc; split <;> rfl
@[simp] theorem disc_pongOk (x : Peer) : (disc x).pongOk = x.pongOk := by unfold disc; split <;> rfl
@[simp] theorem disc_pingTimerOk (x : Peer) : (disc x).pingTimerOk = x.pingTimerOk := by unfold disc; split <;> rfl
@[simp] theorem disc_state (x : Peer) : (disc x).state = .disconnected := by
  unfold disc; split
  · rfl
  · rename_i h; simpa using h

theorem tear_eff (s : St) (c : Nat) : Torn s (teardown s c) c ∧ TearEff s c (teardown s c) := by
  unfold teardown
  simp only
  split
  · rename_i hp
    exact ⟨⟨rfl, rfl, rfl, rfl, rfl, rfl, rfl⟩, .nobody (.inl hp) rfl rfl rfl rfl⟩
  rename_i p hp
  split
  · rename_i hm
    exact ⟨⟨rfl, rfl, rfl, rfl, rfl, rfl, rfl⟩, .nobody (.inr (by simpa using hm)) rfl rfl rfl rfl⟩
  rename_i hm
  simp only [Bool.not_eq_true] at hm
  split
  · rename_i hf
    exact ⟨⟨rfl, rfl, rfl, rfl, rfl, rfl, rfl⟩, .ub p hp hm hf rfl rfl rfl rfl⟩
  rename_i hf
  simp only [Bool.not_eq_true] at hf
  split
  · rename_i h hh
    exact ⟨⟨rfl, rfl, rfl, rfl, rfl, rfl, rfl⟩, .preempt p h hp hm hf (by simpa [setConn] using hh) rfl (by simp [setPeer, setConn]) rfl rfl⟩
  · rename_i hh
    exact ⟨⟨rfl, rfl, rfl, rfl, rfl, rfl, rfl⟩, .backoff p hp hm hf (by simpa [setConn] using hh) rfl rfl rfl
      (by simp only [setConn, setPeer, disc_retryInit])⟩

/-- What on_dispatcher_setup does. -/
structure Est (g : Cfg) (s : St) (c cert : Nat) (draw : BitVec 16) (t : St) : Prop where
  n : t.n = s.n
  m : t.m = s.m
  known : t.known = s.known
  posted : t.posted = s.posted
  cbs : t.cbs = s.cbs
  unk : t.unk = s.unk
  errs : t.errs = s.errs
  ub : t.ub = s.ub
  peers : t.peers = s.peers ∨ ∃ p, (s.conns c).active = true ∧
    find s (if g.certMode then g.hashCert cert else g.hashAddr (s.conns c).addr) = some p ∧ t.peers = upd s.peers p (getNonce (s.peers p) draw)
  link : ∀ d, (t.conns d).peer = (s.conns d).peer
  other : ∀ d, d ≠ c → Conn.Fix (t.conns d) (s.conns d)
  addr : (t.conns c).addr = (s.conns c).addr
  active : (t.conns c).active = (s.conns c).active
  manual : (t.conns c).manual = (s.conns c).manual
  term : (t.conns c).term = (s.conns c).term
  torn : (t.conns c).torn = (s.conns c).torn
  setUp : (t.conns c).setUp = true
  pending : t.pending = s.pending ∧ ((s.conns c).active = true ∨ ∃ e ∈ s.pending, e.1 = (s.conns c).addr ∧ e.2 = c) ∨
    (s.conns c).active = false ∧ t.pending = s.pending.filter (fun e => e.1 ≠ (s.conns c).addr) ++ [((s.conns c).addr, c)]

theorem est_eff (g : Cfg) (s : St) (c cert : Nat) (draw : BitVec 16) :
    Est g s c cert draw (setup g (setConn s c { s.conns c with cert := if (s.conns c).active then cert else (s.conns c).cert }) c draw) := by
  unfold setup
  generalize e1 : setConn (setConn s c { s.conns c with cert := if (s.conns c).active then cert else (s.conns c).cert }) c
    { (setConn s c { s.conns c with cert := if (s.conns c).active then cert else (s.conns c).cert }).conns c with setUp := true } = s1
  have hc : s1.conns c = { s.conns c with cert := if (s.conns c).active then cert else (s.conns c).cert, setUp := true } := by
    subst e1; simp [setConn]
  have ho : ∀ d, d ≠ c → s1.conns d = s.conns d := by
    intro d hd; subst e1; simp [setConn, upd_apply, hd]
  have hs : s1.n = s.n ∧ s1.m = s.m ∧ s1.known = s.known ∧ s1.posted = s.posted ∧ s1.cbs = s.cbs ∧ s1.unk = s.unk ∧
      s1.errs = s.errs ∧ s1.ub = s.ub ∧ s1.peers = s.peers ∧ s1.pending = s.pending := by
    subst e1; exact ⟨rfl, rfl, rfl, rfl, rfl, rfl, rfl, rfl, rfl, rfl⟩
  clear e1
  obtain ⟨a1, a2, a3, a4, a5, a6, a7, a8, a9, a10⟩ := hs
  have hlink : ∀ d, (s1.conns d).peer = (s.conns d).peer := by
    intro d
    by_cases h : d = c
    · rw [h, hc]
    · rw [ho d h]
  have hact : (s1.conns c).active = (s.conns c).active := by rw [hc]
  simp only
  have base : ∀ t, Same0 s1 t → (t.pending = s.pending ∧ ((s.conns c).active = true ∨ ∃ e ∈ s.pending, e.1 = (s.conns c).addr ∧ e.2 = c)) →
      Est g s c cert draw t := by
    intro t k hp
    have f := k.fix c
    rw [hc] at f
    exact ⟨k.n.trans a1, k.m.trans a2, k.known.trans a3, k.posted.trans a4, k.cbs.trans a5, k.unk.trans a6,
      k.errs.trans a7, k.ub.trans a8, .inl (k.peers.trans a9), fun d => (k.link d).trans (hlink d),
      fun d hd => by have := k.fix d; rw [ho d hd] at this; exact this,
      f.addr, f.active, f.manual, f.term, f.torn, f.setUp, .inl hp⟩
  split
  · rename_i ha
    have ha : (s.conns c).active = true := by rw [← hact]; exact ha
    split
    · split
      · exact base _ (same0_send _ _ _) ⟨((same0_send _ _ _).pending).trans a10, .inl ha⟩
      · exact base _ (same0_term _ _) ⟨((same0_term _ _).pending).trans a10, .inl ha⟩
    · rename_i p hf
      have k := (chg_set s1 p (getNonce (s1.peers p) draw)).then (same0_send _ c
        (.ping ⟨g.listenAddr, ((setPeer s1 p (getNonce (s1.peers p) draw)).peers p).nonce⟩))
      have f := k.fix c
      rw [hc] at f
      refine ⟨k.n.trans a1, k.m.trans a2, k.known.trans a3, k.posted.trans a4, k.cbs.trans a5, k.unk.trans a6,
        k.errs.trans a7, k.ub.trans a8, .inr ⟨p, ha, ?_, ?_⟩, fun d => (k.link d).trans (hlink d),
        fun d hd => by have := k.fix d; rw [ho d hd] at this; exact this,
        f.addr, f.active, f.manual, f.term, f.torn, f.setUp, .inl ⟨k.pending.trans a10, .inl ha⟩⟩
      · rw [← hf]
        unfold find
        rw [a3]
        unfold pidOf
        rw [hc]
        simp [ha]
      · rw [k.peers, a9]
  · rename_i ha
    have ha : (s.conns c).active = false := by rw [← hact]; simpa using ha
    have haddr : (s1.conns c).addr = (s.conns c).addr := by rw [hc]
    simp only [haddr, a10]
    split
    · rename_i hn
      rw [List.find?_eq_none] at hn
      have hfil : s.pending = s.pending.filter (fun e => e.1 ≠ (s.conns c).addr) := by
        symm
        rw [List.filter_eq_self]
        intro e he
        simpa using hn e he
      refine ⟨a1, a2, a3, a4, a5, a6, a7, a8, .inl a9, hlink,
        fun d hd => by show Conn.Fix (s1.conns d) _; rw [ho d hd]; exact .refl _,
        haddr, hact, by show (s1.conns c).manual = _; rw [hc], by show (s1.conns c).term = _; rw [hc],
        by show (s1.conns c).torn = _; rw [hc], by show (s1.conns c).setUp = _; rw [hc], .inr ⟨ha, ?_⟩⟩
      show s.pending ++ _ = _
      rw [← hfil]
    · rename_i e he
      have he1 := List.mem_of_find?_eq_some he
      have he2 := List.find?_some he
      simp only [decide_eq_true_eq] at he2
      split
      · rename_i hec
        exact base _ (.refl _) ⟨a10, .inr ⟨e, he1, he2, hec⟩⟩
      · have k := same0_term s1 e.2
        have f := k.fix c
        rw [hc] at f
        refine ⟨k.n.trans a1, k.m.trans a2, k.known.trans a3, k.posted.trans a4, k.cbs.trans a5, k.unk.trans a6,
          k.errs.trans a7, k.ub.trans a8, .inl (k.peers.trans a9), fun d => (k.link d).trans (hlink d),
          fun d hd => by have := k.fix d; rw [ho d hd] at this; exact this,
          f.addr, f.active, f.manual, f.term, f.torn, f.setUp, .inr ⟨ha, ?_⟩⟩
        show (dispTerminate s1 e.2).pending.filter _ ++ _ = _
        rw [k.pending, a10]

end PeerNet
end Salticidae
