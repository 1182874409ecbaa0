import Verif.Lemmas.PeerEff
import Verif.Spec.PeerPair
/-!
Two nodes: what is sent and which connections are asked to go.
-/
namespace Salticidae
namespace PeerNet

theorem asked_send (s : St) (c d : Nat) (m : Msg) : ((send s c m).conns d).asked = (s.conns d).asked := by
  simp only [send, setConn, upd_apply]; split
  · rename_i h; subst h; rfl
  · rfl
theorem out_send (s : St) (c d : Nat) (m : Msg) :
    ((send s c m).conns d).out = (s.conns d).out ++ if d = c then [m] else [] := by
  simp only [send, setConn, upd_apply]; split
  · rename_i h; subst h; rfl
  · simp
theorem asked_term (s : St) (c d : Nat) : ((dispTerminate s c).conns d).asked = ((s.conns d).asked || decide (d = c)) := by
  simp only [dispTerminate, setConn, upd_apply]; split
  · rename_i h; subst h; simp
  · rename_i h; simp [h]
theorem out_term (s : St) (c d : Nat) : ((dispTerminate s c).conns d).out = (s.conns d).out := by
  simp only [dispTerminate, setConn, upd_apply]; split
  · rename_i h; subst h; rfl
  · rfl
theorem asked_unlink (s : St) (o : Option Nat) (d : Nat) : ((unlink s o).conns d).asked = (s.conns d).asked := by
  cases o with
  | none => rfl
  | some c =>
    simp only [unlink, setConn, upd_apply]; split
    · rename_i h; subst h; rfl
    · rfl
theorem out_unlink (s : St) (o : Option Nat) (d : Nat) : ((unlink s o).conns d).out = (s.conns d).out := by
  cases o with
  | none => rfl
  | some c =>
    simp only [unlink, setConn, upd_apply]; split
    · rename_i h; subst h; rfl
    · rfl

theorem finish_out (s : St) (p c d : Nat) :
    ((finishHandshake s p c).conns d).out = (s.conns d).out ++ (if d = c then [.ping heartbeat] else []) ∧
    ((finishHandshake s p c).conns d).asked = (s.conns d).asked := by
  have l1 := out_unlink s (s.peers p).outbound
  have l2 := asked_unlink s (s.peers p).outbound
  generalize e1 : unlink s (s.peers p).outbound = s1 at *
  have : finishHandshake s p c = (
    let s := setPeer s1 p { s1.peers p with
      inbound := none, outbound := none, chosen := some c, state := .connected }
    let s := resetSendPing s p
    let old := (s.peers p).conn
    let s := setPeer s p { s.peers p with
      retryArmed := false, curNtry := (s.peers p).ntry, conn := c }
    let s := unlink s (some old)
    let s := setConn s c { s.conns c with peer := some p }
    { s with
      cbs := s.cbs ++ [(c, true)]
      pending := s.pending.filter (fun e => e.1 ≠ (s.conns c).addr) } : St) := by
    rw [← e1]; rfl
  rw [this]
  simp only [setPeer, resetSendPing, upd_self]
  constructor
  · rw [← l1]
    simp only [send, setConn, unlink, upd_apply]
    split <;> split <;> (try split) <;> simp_all
  · rw [← l2]
    simp only [send, setConn, unlink, upd_apply]
    split <;> split <;> (try split) <;> simp_all

/-- The first handshake message from a connection that came in, at a peer that is not connected. -/
theorem ping_hs (g : Cfg) (s : St) (c : Nat) (h : Hs) (draw : BitVec 16) (p : Nat) (hh : InHs g s c h p)
    (hs : (s.peers p).state = .disconnected) (hv : (s.peers p).nonce ≠ 0) (hi : (s.peers p).inbound = none ∨ (s.peers p).inbound = some c) :
    let t := pingClosure g s c h draw
    (h.nonce < (s.peers p).nonce ∨ (s.peers p).addr = 0 → Fin s t p c { s.peers p with inbound := some c } ∧
      ∀ d, (t.conns d).asked = (s.conns d).asked ∧
        (t.conns d).out = (s.conns d).out ++ if d = c then [.pong ⟨g.listenAddr, (s.peers p).nonce⟩, .ping heartbeat] else []) ∧
    (¬ (h.nonce < (s.peers p).nonce ∨ (s.peers p).addr = 0) → Chg s t p { s.peers p with inbound := some c } ∧
      ∀ d, (t.conns d).asked = ((s.conns d).asked || decide (d = c)) ∧
        (t.conns d).out = (s.conns d).out ++ if d = c then [.pong ⟨g.listenAddr, (s.peers p).nonce⟩] else []) := by
  have eg : getNonce (s.peers p) draw = s.peers p := by simp [getNonce, hv]
  have hu : ∀ (x : St), x.peers = s.peers → setPeer x p (s.peers p) = x := by
    intro x hx
    unfold setPeer
    have : upd x.peers p (s.peers p) = x.peers := by
      funext q; simp only [upd_apply, hx]; split
      · rename_i e; rw [e]
      · rfl
    rw [this]
  have e : pingClosure g s c h draw = (if h.nonce < (s.peers p).nonce ∨ (s.peers p).addr = 0 then
      finishHandshake (setPeer (send s c (.pong ⟨g.listenAddr, (s.peers p).nonce⟩)) p { s.peers p with inbound := some c }) p c
      else dispTerminate (setPeer (send s c (.pong ⟨g.listenAddr, (s.peers p).nonce⟩)) p { s.peers p with inbound := some c }) c) := by
    unfold pingClosure
    simp only [hh.term, hh.claimed, hh.passive, hh.found, hh.nonce, hs, eg, Bool.false_eq_true, if_false]
    rw [hu s rfl]
    have : (send s c (.pong ⟨g.listenAddr, (s.peers p).nonce⟩)).peers = s.peers := rfl
    simp only [this]
    have e2 : (if (s.peers p).inbound = some c then send s c (.pong ⟨g.listenAddr, (s.peers p).nonce⟩)
        else dispTerminate? (send s c (.pong ⟨g.listenAddr, (s.peers p).nonce⟩)) (s.peers p).inbound) =
        send s c (.pong ⟨g.listenAddr, (s.peers p).nonce⟩) := by
      rcases hi with hi | hi
      · rw [hi]; simp [dispTerminate?]
      · rw [if_pos hi]
    rw [e2]
    have e3 : ∀ (x : St) (y : Peer), (setPeer x p y).peers p = y := fun x y => by simp [setPeer]
    simp only [this, e3]
    rw [hs]
  have k1 := (same0_send s c (.pong ⟨g.listenAddr, (s.peers p).nonce⟩)).chg (chg_set _ p { s.peers p with inbound := some c })
  have ho : ∀ d, ((setPeer (send s c (.pong ⟨g.listenAddr, (s.peers p).nonce⟩)) p { s.peers p with inbound := some c }).conns d).out =
      (s.conns d).out ++ if d = c then [.pong ⟨g.listenAddr, (s.peers p).nonce⟩] else [] := fun d => out_send s c d _
  have ha : ∀ d, ((setPeer (send s c (.pong ⟨g.listenAddr, (s.peers p).nonce⟩)) p { s.peers p with inbound := some c }).conns d).asked =
      (s.conns d).asked := fun d => asked_send s c d _
  generalize setPeer (send s c (.pong ⟨g.listenAddr, (s.peers p).nonce⟩)) p { s.peers p with inbound := some c } = s1 at *
  intro t
  constructor
  · intro hn
    have et : t = finishHandshake s1 p c := by show pingClosure _ _ _ _ _ = _; rw [e, if_pos hn]
    rw [et]
    refine ⟨k1.fin, fun d => ⟨?_, ?_⟩⟩
    · rw [(finish_out s1 p c d).2, ha]
    · rw [(finish_out s1 p c d).1, ho]
      split <;> simp
  · intro hn
    have et : t = dispTerminate s1 c := by show pingClosure _ _ _ _ _ = _; rw [e, if_neg hn]
    rw [et]
    refine ⟨k1.then (same0_term _ _), fun d => ⟨?_, ?_⟩⟩
    · rw [asked_term, ha]
    · rw [out_term, ho]

/-- The answer to a handshake, at a peer that is not connected. -/
theorem pong_hs (g : Cfg) (s : St) (c : Nat) (h : Hs) (draw : BitVec 16) (p : Nat) (hh : OutHs g s c h p)
    (hv : (s.peers p).nonce ≠ 0) (hi : (s.peers p).outbound = some c) :
    let t := pongClosure g s c h draw
    ((s.peers p).nonce < h.nonce → Fin s t p c (s.peers p) ∧
      ∀ d, (t.conns d).asked = (s.conns d).asked ∧
        (t.conns d).out = (s.conns d).out ++ if d = c then [.ping heartbeat] else []) ∧
    (¬ (s.peers p).nonce < h.nonce → Chg s t p (s.peers p) ∧
      ∀ d, (t.conns d).asked = ((s.conns d).asked || decide (d = c)) ∧ (t.conns d).out = (s.conns d).out) := by
  have eg : getNonce (s.peers p) draw = s.peers p := by simp [getNonce, hv]
  have hu : ∀ (x : St), x.peers = s.peers → setPeer x p (s.peers p) = x := by
    intro x hx
    unfold setPeer
    have : upd x.peers p (s.peers p) = x.peers := by
      funext q; simp only [upd_apply, hx]; split
      · rename_i e; rw [e]
      · rfl
    rw [this]
  have ex : { s.peers p with outbound := some c } = s.peers p := by rw [← hi]
  have e : pongClosure g s c h draw = (if (s.peers p).nonce < h.nonce then finishHandshake s p c else dispTerminate s c) := by
    unfold pongClosure
    have hn : ¬ ((s.peers p).state ≠ .disconnected ∨ (s.peers p).addr ≠ h.claimed) := by simp [hh.state, hh.addr]
    simp only [hh.term, hh.active, hh.found, Bool.false_eq_true, if_false, Bool.not_true, ne_eq, hh.claimed, not_false_eq_true, if_true]
    rw [if_neg hn]
    simp only [hi, if_true, ex, hu s rfl, eg]
  have k1 := chg_set s p (s.peers p)
  rw [hu s rfl] at k1
  intro t
  constructor
  · intro hn
    have et : t = finishHandshake s p c := by show pongClosure _ _ _ _ _ = _; rw [e, if_pos hn]
    rw [et]
    exact ⟨k1.fin, fun d => ⟨(finish_out s p c d).2, (finish_out s p c d).1⟩⟩
  · intro hn
    have et : t = dispTerminate s c := by show pongClosure _ _ _ _ _ = _; rw [e, if_neg hn]
    rw [et]
    exact ⟨k1.then (same0_term _ _), fun d => ⟨asked_term _ _ _, out_term _ _ _⟩⟩

/-- A heartbeat message. -/
def Beat : Msg → Prop
  | .ping h => h.claimed = 0
  | .pong h => h.claimed = 0

/-- No peer waits for the answer to a heartbeat after its timer has fired. -/
def Calm (s : St) : Prop := ∀ p, (s.peers p).pingTimerOk ≠ some true

/-- What a heartbeat on `c` changes: a flag of a peer, and an answer is sent on `c`. -/
structure Soft (c : Nat) (s t : St) : Prop where
  n : t.n = s.n
  known : t.known = s.known
  posted : t.posted = s.posted
  cbs : t.cbs = s.cbs
  peers : ∀ p, ∃ a, t.peers p = { s.peers p with pongOk := a }
  fix : ∀ c, Conn.Fix (t.conns c) (s.conns c)
  link : ∀ d, (t.conns d).peer = (s.conns d).peer
  asked : ∀ d, (t.conns d).asked = (s.conns d).asked
  out : ∃ l, (t.conns c).out = (s.conns c).out ++ l ∧ ∀ m ∈ l, Beat m
  other : ∀ d, d ≠ c → (t.conns d).out = (s.conns d).out

theorem soft_refl (c : Nat) (s : St) : Soft c s s :=
  ⟨rfl, rfl, rfl, rfl, fun _ => ⟨_, rfl⟩, fun _ => .refl _, fun _ => rfl, fun _ => rfl, ⟨[], by simp⟩, fun _ _ => rfl⟩

theorem soft_ping (g : Cfg) (s : St) (c : Nat) (h : Hs) (draw : BitVec 16) (hz : h.claimed = 0) :
    Soft c s (pingClosure g s c h draw) := by
  unfold pingClosure
  rw [if_pos hz]
  split
  · exact soft_refl c s
  · have k := same_send s c (.pong heartbeat)
    refine ⟨rfl, rfl, rfl, rfl, fun _ => ⟨_, rfl⟩, k.fix, fun d => link_send s c d _, fun d => asked_send s c d _, ?_, fun d hd => ?_⟩
    · refine ⟨_, out_send s c c _, ?_⟩
      simp [Beat, heartbeat]
    · rw [out_send, if_neg hd, List.append_nil]

theorem soft_pong (g : Cfg) (s : St) (c : Nat) (h : Hs) (draw : BitVec 16) (hz : h.claimed = 0) (hc : Calm s) :
    Soft c s (pongClosure g s c h draw) := by
  have k : ∀ p b u, Soft c s { setPeer s p { s.peers p with pongOk := b } with ub := u } := by
    intro p b u
    refine ⟨rfl, rfl, rfl, rfl, fun q => ?_, fun _ => .refl _, fun _ => rfl, fun _ => rfl, ⟨[], by simp [setPeer]⟩, fun _ _ => rfl⟩
    simp only [setPeer, upd_apply]
    split
    · rename_i e; subst e; exact ⟨_, rfl⟩
    · exact ⟨_, rfl⟩
  unfold pongClosure
  split
  · exact soft_refl c s
  · simp only [hz, ne_eq, not_true, if_false]
    split
    · exact soft_refl c s
    · rename_i p hp
      split
      · exact ⟨rfl, rfl, rfl, rfl, fun _ => ⟨_, rfl⟩, fun _ => .refl _, fun _ => rfl, fun _ => rfl, ⟨[], by simp⟩, fun _ _ => rfl⟩
      · split
        · exact k p _ _
        · rename_i ho
          simp only [setPeer, upd_self] at ho
          exact absurd ho (hc p)
        · exact k p _ _

theorem Soft.calm {c : Nat} {s t : St} (h : Soft c s t) (k : Calm s) : Calm t := by
  intro p
  obtain ⟨a, e⟩ := h.peers p
  rw [e]; exact k p

end PeerNet
end Salticidae
