import Verif.Lemmas.PeerEff
namespace Salticidae
namespace PeerNet

/-! ## The remaining effects -/

/-- A peer after `conn_peer`. -/
def redial (x : Peer) (ntry : Int) : Peer := { x with
  ntry := ntry, curNtry := ntry, inbound := none, outbound := none, pingArmed := false, nonce := 0
  retryInit := true
  retryArmed := if x.state = .disconnected then decide (ntry ≠ 0) else false
  state := if x.state = .connected then .reset else x.state }

inductive DialEff (s : St) (pid : Nat) (ntry : Int) (t : St) : Prop where
  | err (e : Err) (h : find s pid = none ∧ e = .notExist ∨ ∃ p, find s pid = some p ∧ (s.peers p).addr = 0 ∧ e = .notReady)
      (ht : t = { s with errs := s.errs ++ [e] })
  | ok (p : Nat) (hf : find s pid = some p) (ha : (s.peers p).addr ≠ 0) (h : Chg s t p (redial (s.peers p) ntry))

theorem dial_eff (s : St) (pid : Nat) (ntry : Int) : DialEff s pid ntry (connPeer s pid ntry) := by
  unfold connPeer
  split
  · rename_i hf; exact .err _ (.inl ⟨hf, rfl⟩) rfl
  rename_i p hf
  simp only
  split
  · rename_i ha; exact .err _ (.inr ⟨p, hf, ha, rfl⟩) rfl
  rename_i ha
  refine .ok p hf ha ?_
  split <;> rename_i hst
  · have := chg_set s p (redial (s.peers p) ntry)
    simp only [redial, hst, if_true, reduceCtorEq, if_false] at this ⊢
    exact this
  · have := (chg_set s p (redial (s.peers p) ntry)).then (same0_term _ (s.peers p).conn)
    simp only [redial, hst, if_true, reduceCtorEq, if_false] at this ⊢
    exact this
  · have := chg_set s p (redial (s.peers p) ntry)
    simp only [redial, hst, reduceCtorEq, if_false] at this ⊢
    exact this

/-- del_peer of a known peer. -/
structure Del (s t : St) (pid p : Nat) : Prop where
  n : t.n = s.n
  m : t.m = s.m
  peers : t.peers = upd s.peers p { s.peers p with freed := true }
  known : t.known = s.known.filter (fun e => e.1 ≠ pid)
  pending : t.pending = s.pending
  posted : t.posted = s.posted
  cbs : t.cbs = s.cbs
  unk : t.unk = s.unk
  errs : t.errs = s.errs
  ub : t.ub = s.ub
  fix : ∀ d, Conn.Fix (t.conns d) (s.conns d)
  link : ∀ d, (t.conns d).peer =
    if (s.peers p).conn = d ∨ (s.peers p).inbound = some d ∨ (s.peers p).outbound = some d then none else (s.conns d).peer

theorem del_eff (s : St) (pid p : Nat) (hf : find s pid = some p) : Del s (delPeer s pid) pid p := by
  unfold delPeer
  rw [hf]
  simp only
  generalize hx : s.peers p = x
  have k0 := (same_unlink s (some x.conn)).trans ((same_term _ x.conn).trans
    ((same_term? (dispTerminate (unlink s (some x.conn)) x.conn) x.inbound).trans (same_term? _ x.outbound)))
  have l0 : ∀ d, ((dispTerminate? (dispTerminate? (dispTerminate (unlink s (some x.conn)) x.conn) x.inbound) x.outbound).conns d).peer =
      if x.conn = d then none else (s.conns d).peer := by
    intro d
    rw [link_term?, link_term?, link_term, link_unlink]
    simp
  generalize dispTerminate? (dispTerminate? (dispTerminate (unlink s (some x.conn)) x.conn) x.inbound) x.outbound = s1 at *
  have k1 := (same_unlink s1 x.inbound).trans (same_unlink _ x.outbound)
  have l1 : ∀ d, ((unlink (unlink s1 x.inbound) x.outbound).conns d).peer =
      if x.outbound = some d then none else if x.inbound = some d then none else (s1.conns d).peer := by
    intro d
    rw [link_unlink, link_unlink]
  generalize unlink (unlink s1 x.inbound) x.outbound = s2 at *
  have k := k0.trans k1
  refine ⟨k.n, k.m, ?_, ?_, k.pending, k.posted, k.cbs, k.unk, k.errs, k.ub, k.fix, fun d => ?_⟩
  · simp [setPeer, k.peers, hx]
  · simp [k.known]
  · have h1 := l1 d
    have h0 := l0 d
    show (s2.conns d).peer = _
    rw [h1, h0, hx]
    grind

/-- The retry timer. -/
structure Dial (s t : St) (p : Nat) : Prop where
  n : t.n = s.n + 1
  m : t.m = s.m
  peers : t.peers = upd s.peers p { s.peers p with outbound := some s.n, retryArmed := true, dials := (s.peers p).dials + 1 }
  known : t.known = s.known
  pending : t.pending = s.pending
  posted : t.posted = s.posted
  cbs : t.cbs = s.cbs
  unk : t.unk = s.unk
  errs : t.errs = s.errs
  ub : t.ub = s.ub
  fix : ∀ d, d ≠ s.n → Conn.Fix (t.conns d) (s.conns d)
  link : ∀ d, (t.conns d).peer = if d = s.n then some p else (s.conns d).peer
  newc : Conn.Fix (t.conns s.n) { newConn (s.peers p).addr 0 true with manual := false }

theorem retry_eff (s : St) (p : Nat) : Dial s (retryTimer s p) p := by
  unfold retryTimer
  simp only
  generalize e1 : ({ s with
    n := s.n + 1
    conns := upd s.conns s.n { newConn (s.peers p).addr 0 true with peer := some p, manual := false } } : St) = s1
  have k := same0_term? s1 (s.peers p).outbound
  have hs : s1.n = s.n + 1 ∧ s1.m = s.m ∧ s1.known = s.known ∧ s1.posted = s.posted ∧ s1.cbs = s.cbs ∧ s1.unk = s.unk ∧
      s1.errs = s.errs ∧ s1.ub = s.ub ∧ s1.peers = s.peers ∧ s1.pending = s.pending ∧
      s1.conns = upd s.conns s.n { newConn (s.peers p).addr 0 true with peer := some p, manual := false } := by
    subst e1; exact ⟨rfl, rfl, rfl, rfl, rfl, rfl, rfl, rfl, rfl, rfl, rfl⟩
  obtain ⟨a1, a2, a3, a4, a5, a6, a7, a8, a9, a10, a11⟩ := hs
  clear e1
  refine ⟨k.n.trans a1, k.m.trans a2, ?_, k.known.trans a3, k.pending.trans a10, k.posted.trans a4, k.cbs.trans a5,
    k.unk.trans a6, k.errs.trans a7, k.ub.trans a8, fun d hd => ?_, fun d => ?_, ?_⟩
  · simp [setPeer, k.peers, a9]
  · have := k.fix d
    rw [a11, upd_apply, if_neg hd] at this
    exact this
  · have := k.link d
    rw [a11, upd_apply] at this
    refine this.trans ?_
    split <;> rfl
  · have := k.fix s.n
    rw [a11, upd_self] at this
    exact ⟨this.1, this.2, this.3, this.4, this.5, this.6, this.7⟩

inductive TimerEff (s : St) (p : Nat) (t : St) : Prop where
  | wait (h : (s.peers p).pongOk = some false) (e : Chg s t p { s.peers p with pingTimerOk := some true, pingArmed := false })
  | beat (d : Nat) (h : (s.peers p).pongOk = some true) (hd : (s.peers p).chosen = some d)
      (e : Chg s t p { s.peers p with pingArmed := true, pingTimerOk := some false, pongOk := some false })
  | ub (h : (s.peers p).pongOk = none ∨ (s.peers p).chosen = none)
      (e : ∃ u x, Chg s u p x ∧ t = { u with ub := true } ∧
        (x = { s.peers p with pingTimerOk := some true, pingArmed := false } ∨
         x = { s.peers p with pingArmed := true, pingTimerOk := some false, pongOk := some false }) ∧
        ((s.peers p).pongOk ≠ none → x = { s.peers p with pingArmed := true, pingTimerOk := some false, pongOk := some false }))

theorem timer_eff (s : St) (p : Nat) : TimerEff s p (pingTimer s p) := by
  unfold pingTimer
  simp only
  have k1 := chg_set s p { s.peers p with pingTimerOk := some true, pingArmed := false }
  generalize setPeer s p { s.peers p with pingTimerOk := some true, pingArmed := false } = s1 at *
  have e1 : s1.peers p = { s.peers p with pingTimerOk := some true, pingArmed := false } := by rw [k1.peers, upd_self]
  split
  · rename_i h; exact .ub (.inl h) ⟨s1, _, k1, rfl, .inl rfl, fun k => absurd h k⟩
  · rename_i h
    rcases beat_eff s1 p with ⟨d, hd, k⟩ | ⟨hd, u, k, e⟩
    · rw [e1] at hd k
      exact .beat d h hd (k1.chg k)
    · rw [e1] at hd k
      exact .ub (.inr hd) ⟨u, _, k1.chg k, e, .inr rfl, fun _ => rfl⟩
  · rename_i h; exact .wait h k1

/-! ## Basic invariant -/

structure Basic (s : St) : Prop where
  known : ∀ e ∈ s.known, e.2 < s.m ∧ (s.peers e.2).id = e.1 ∧ (s.peers e.2).freed = false
  uniq : (s.known.map (·.1)).Nodup
  live : ∀ p, p < s.m → (s.peers p).freed = false → ((s.peers p).id, p) ∈ s.known
  link : ∀ c p, (s.conns c).peer = some p → c < s.n ∧ p < s.m
  idx : ∀ p, p < s.m → (s.peers p).conn < s.n ∧ (∀ c, (s.peers p).inbound = some c → c < s.n) ∧
    (∀ c, (s.peers p).outbound = some c → c < s.n) ∧ (∀ c, (s.peers p).chosen = some c → c < s.n)
  posted : ∀ e ∈ s.posted, ∀ c, e.2 = some c → c < s.n

theorem basic_init : Basic init := by
  refine ⟨by simp [init], by simp [init], by simp [init], by simp [init, newConn], by simp [init], by simp [init]⟩

theorem find_mem {s : St} {pid p : Nat} (h : find s pid = some p) : (pid, p) ∈ s.known := by
  unfold find at h
  cases e : s.known.find? (fun e => e.1 = pid) with
  | none => simp [e] at h
  | some x =>
    simp [e] at h
    have h1 := List.mem_of_find?_eq_some e
    have h2 := List.find?_some e
    simp at h2
    rw [← h, ← h2]
    exact h1

theorem Basic.find_iff {s : St} (b : Basic s) {pid p : Nat} :
    find s pid = some p ↔ p < s.m ∧ (s.peers p).id = pid ∧ (s.peers p).freed = false := by
  constructor
  · intro h; exact b.known _ (find_mem h)
  · rintro ⟨h1, h2, h3⟩
    have hm := b.live p h1 h3
    rw [h2] at hm
    unfold find
    have hu := b.uniq
    clear h1 h2 h3
    revert hu hm
    generalize s.known = l
    induction l with
    | nil => intro hm; simp at hm
    | cons e l ih =>
      intro hm hu
      rw [List.map_cons, List.nodup_cons] at hu
      rw [List.find?_cons]
      by_cases h : e.1 = pid
      · simp only [h, decide_true, Option.map_some]
        rcases List.mem_cons.mp hm with h1 | h1
        · rw [← h1]
        · exact absurd (List.mem_map.mpr ⟨_, h1, h.symm⟩) hu.1
      · simp only [h, decide_false]
        rcases List.mem_cons.mp hm with h1 | h1
        · exact absurd (by rw [← h1]) h
        · exact ih h1 hu.2

theorem find_none {s : St} {pid : Nat} (h : find s pid = none) : ∀ e ∈ s.known, e.1 ≠ pid := by
  unfold find at h
  rw [Option.map_eq_none_iff, List.find?_eq_none] at h
  intro e he
  simpa using h e he

@[simp] theorem getNonce_id (x : Peer) (d : BitVec 16) : (getNonce x d).id = x.id := by unfold getNonce; split <;> rfl
@[simp] theorem getNonce_freed (x : Peer) (d : BitVec 16) : (getNonce x d).freed = x.freed := by unfold getNonce; split <;> rfl
@[simp] theorem getNonce_conn (x : Peer) (d : BitVec 16) : (getNonce x d).conn = x.conn := by unfold getNonce; split <;> rfl
@[simp] theorem getNonce_inbound (x : Peer) (d : BitVec 16) : (getNonce x d).inbound = x.inbound := by unfold getNonce; split <;> rfl
@[simp] theorem getNonce_outbound' (x : Peer) (d : BitVec 16) : (getNonce x d).outbound = x.outbound := by unfold getNonce; split <;> rfl
@[simp] theorem getNonce_chosen (x : Peer) (d : BitVec 16) : (getNonce x d).chosen = x.chosen := by unfold getNonce; split <;> rfl
@[simp] theorem getNonce_state (x : Peer) (d : BitVec 16) : (getNonce x d).state = x.state := by unfold getNonce; split <;> rfl
@[simp] theorem getNonce_ntry (x : Peer) (d : BitVec 16) : (getNonce x d).ntry = x.ntry := by unfold getNonce; split <;> rfl
@[simp] theorem getNonce_curNtry (x : Peer) (d : BitVec 16) : (getNonce x d).curNtry = x.curNtry := by unfold getNonce; split <;> rfl
@[simp] theorem getNonce_retryArmed (x : Peer) (d : BitVec 16) : (getNonce x d).retryArmed = x.retryArmed := by unfold getNonce; split <;> rfl
@[simp] theorem getNonce_retryInit (x : Peer) (d : BitVec 16) : (getNonce x d).retryInit = x.retryInit := by unfold getNonce; split <;> rfl
@[simp] theorem getNonce_dials (x : Peer) (d : BitVec 16) : (getNonce x d).dials = x.dials := by unfold getNonce; split <;> rfl
@[simp] theorem getNonce_pingArmed (x : Peer) (d : BitVec 16) : (getNonce x d).pingArmed = x.pingArmed := by unfold getNonce; split <;> rfl
@[simp] theorem getNonce_pingTimerOk (x : Peer) (d : BitVec 16) : (getNonce x d).pingTimerOk = x.pingTimerOk := by unfold getNonce; split <;> rfl
@[simp] theorem getNonce_pongOk (x : Peer) (d : BitVec 16) : (getNonce x d).pongOk = x.pongOk := by unfold getNonce; split <;> rfl
@[simp] theorem getNonce_preempt (x : Peer) (d : BitVec 16) : (getNonce x d).preempt = x.preempt := by unfold getNonce; split <;> rfl
@[simp] theorem getNonce_addr' (x : Peer) (d : BitVec 16) : (getNonce x d).addr = x.addr := getNonce_addr x d

/-- The attempts left after a failure. -/
def left (n : Int) : Int := if n > 0 then n - 1 else n

theorem backoff_eq (x : Peer) : backoff x = { x with
    inbound := none, curNtry := left x.curNtry
    nonce := if left x.curNtry ≠ 0 then 0 else passiveNonce
    retryArmed := if left x.curNtry ≠ 0 then true else x.retryArmed } := by
  unfold backoff left
  simp only
  by_cases h : x.curNtry > 0 <;> by_cases h2 : x.curNtry - 1 = 0 <;> by_cases h3 : x.curNtry = 0 <;> simp [h, h2, h3]

@[simp] theorem backoff_id (x : Peer) : (backoff x).id = x.id := by rw [backoff_eq]
@[simp] theorem backoff_freed (x : Peer) : (backoff x).freed = x.freed := by rw [backoff_eq]
@[simp] theorem backoff_conn (x : Peer) : (backoff x).conn = x.conn := by rw [backoff_eq]
@[simp] theorem backoff_inbound (x : Peer) : (backoff x).inbound = none := by rw [backoff_eq]
@[simp] theorem backoff_outbound (x : Peer) : (backoff x).outbound = x.outbound := by rw [backoff_eq]
@[simp] theorem backoff_chosen (x : Peer) : (backoff x).chosen = x.chosen := by rw [backoff_eq]
@[simp] theorem backoff_state (x : Peer) : (backoff x).state = x.state := by rw [backoff_eq]
@[simp] theorem backoff_ntry (x : Peer) : (backoff x).ntry = x.ntry := by rw [backoff_eq]
@[simp] theorem backoff_retryInit (x : Peer) : (backoff x).retryInit = x.retryInit := by rw [backoff_eq]
@[simp] theorem backoff_dials (x : Peer) : (backoff x).dials = x.dials := by rw [backoff_eq]
@[simp] theorem backoff_pingArmed (x : Peer) : (backoff x).pingArmed = x.pingArmed := by rw [backoff_eq]
@[simp] theorem backoff_pingTimerOk (x : Peer) : (backoff x).pingTimerOk = x.pingTimerOk := by rw [backoff_eq]
@[simp] theorem backoff_pongOk (x : Peer) : (backoff x).pongOk = x.pongOk := by rw [backoff_eq]
@[simp] theorem backoff_preempt (x : Peer) : (backoff x).preempt = x.preempt := by rw [backoff_eq]
@[simp] theorem backoff_addr (x : Peer) : (backoff x).addr = x.addr := by rw [backoff_eq]
theorem disc_outbound (x : Peer) : (disc x).outbound = if x.state = .disconnected then x.outbound else none := by
  unfold disc; split <;> simp_all
@[simp] theorem disc_addr (x : Peer) : (disc x).addr = x.addr := by unfold disc; split <;> rfl

end PeerNet
end Salticidae
