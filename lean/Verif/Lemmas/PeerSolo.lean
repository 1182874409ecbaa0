import Verif.Lemmas.PeerCross
/-!
One-sided dial: what holds at each node.
-/
namespace Salticidae
namespace PeerPair
open PeerNet

/-- What holds at either node: `m` is the handshake message it sends, `b` tells whether it has processed the one it gets, `d` whether it
has sent its own. -/
structure Half (P : Pair) (s : Bool) (m : Msg) (x : St) (b d : Bool) : Prop where
  n : x.n = 2
  known : x.known = [(P.pid (!s), 0)]
  posted : x.posted = []
  act : (x.conns 1).active = s
  addr : s = true → (x.conns 1).addr = P.addr (!s)
  cert : (x.conns 1).cert = P.cert (!s)
  setUp : (x.conns 1).setUp = true
  torn0 : (x.conns 0).term = true ∧ (x.conns 0).torn = true
  out0 : (x.conns 0).out = []
  outn : d = false → (x.conns 1).out = []
  out : d = true → ∃ l, (x.conns 1).out = m :: l ∧ ∀ m ∈ l, Beat m
  calm : Calm x
  down : b = false → (x.peers 0).state = .disconnected ∧ x.cbs = [] ∧ (x.peers 0).inbound = none ∧
    (s = true → (x.peers 0).outbound = some 1)
  up : b = true → (x.peers 0).state = .connected ∧ (x.peers 0).conn = 1 ∧ x.cbs = [(1, true)]
  asked : (x.conns 1).asked = false
  term : (x.conns 1).term = false

variable {P : Pair} {s : Bool} {m : Msg} {x y : St} {b d : Bool}

theorem Half.find (k : Half P s m x b d) : find x (P.pid (!s)) = some 0 := by simp [PeerNet.find, k.known]

theorem Half.soft (k : Half P s m x b d) (h : Soft 1 x y) (hd : d = true) : Half P s m y b d := by
  obtain ⟨pa, ep⟩ := h.peers 0
  refine ⟨h.n.trans k.n, h.known.trans k.known, h.posted.trans k.posted, (h.fix 1).active.trans k.act,
    fun e => (h.fix 1).addr.trans (k.addr e), (h.fix 1).cert.trans k.cert, (h.fix 1).setUp.trans k.setUp,
    ⟨(h.fix 0).term.trans k.torn0.1, (h.fix 0).torn.trans k.torn0.2⟩, (h.other 0 (by omega)).trans k.out0, (fun e => by rw [hd] at e; cases e), fun _ => ?_,
    h.calm k.calm, by rw [ep, h.cbs]; exact k.down, by rw [ep, h.cbs]; exact k.up, (h.asked 1).trans k.asked,
    (h.fix 1).term.trans k.term⟩
  obtain ⟨l0, e, hl⟩ := k.out hd
  obtain ⟨l, e', hl'⟩ := h.out
  refine ⟨l0 ++ l, by rw [e', e]; rfl, fun m hm => ?_⟩
  rcases List.mem_append.1 hm with hm | hm
  · exact hl m hm
  · exact hl' m hm

/-- The node that was dialled gets the handshake. -/
theorem Half.ping {v : Nat} (hv : v ≠ 0) (ha : P.addr true ≠ 0) (draw : BitVec 16)
    (k : Half P false (.pong ⟨P.addr false, passiveNonce⟩) x false false)
    (hn : (x.peers 0).nonce = passiveNonce) (h0 : (x.peers 0).addr = 0) :
    Half P false (.pong ⟨P.addr false, passiveNonce⟩) (pingClosure (P.cfg false) x 1 ⟨P.addr true, v⟩ draw) true true := by
  have hh : InHs (P.cfg false) x 1 ⟨P.addr true, v⟩ 0 := by
    refine ⟨k.term, ha, k.act, ?_, hv⟩
    rw [← k.find]
    congr 1
    simp only [pidOf, Pair.cfg, Pair.pid, k.cert, Bool.not_false]
  have hd := k.down rfl
  have e := (ping_hs (P.cfg false) x 1 ⟨P.addr true, v⟩ draw 0 hh hd.1 (by rw [hn]; simp [passiveNonce]) (.inl hd.2.2.1)).1 (.inr h0)
  obtain ⟨f, e⟩ := e
  generalize pingClosure (P.cfg false) x 1 ⟨P.addr true, v⟩ draw = y at e f
  have hp : y.peers 0 = finished { x.peers 0 with inbound := some 1 } 1 := by rw [f.peers, upd_self]
  refine ⟨f.n.trans k.n, f.known.trans k.known, f.posted.trans k.posted, (f.fix 1).active.trans k.act, by simp,
    (f.fix 1).cert.trans k.cert, (f.fix 1).setUp.trans k.setUp, ⟨(f.fix 0).term.trans k.torn0.1, (f.fix 0).torn.trans k.torn0.2⟩,
    by rw [(e 0).2]; simpa using k.out0, by simp, fun _ => ?_, ?_, by simp, fun _ => ?_, by rw [(e 1).1]; exact k.asked,
    (f.fix 1).term.trans k.term⟩
  · rw [(e 1).2, k.outn rfl, hn]
    exact ⟨_, rfl, by simp [Beat, heartbeat]⟩
  · intro p
    rw [f.peers]
    simp only [upd_apply]
    split
    · simp [finished]
    · exact k.calm p
  · rw [hp, f.cbs, hd.2.1]
    exact ⟨rfl, rfl, rfl⟩

/-- The node that dialled gets the answer. -/
theorem Half.pong {v : Nat} (hv : v ≠ 0) (hlt : v < passiveNonce) (ha : P.addr false ≠ 0) (draw : BitVec 16)
    (k : Half P true m x false true)
    (hn : (x.peers 0).nonce = v) (h0 : (x.peers 0).addr = P.addr false) :
    Half P true m (pongClosure (P.cfg true) x 1 ⟨P.addr false, passiveNonce⟩ draw) true true := by
  have hd := k.down rfl
  have hh : OutHs (P.cfg true) x 1 ⟨P.addr false, passiveNonce⟩ 0 := by
    refine ⟨k.term, ha, k.act, ?_, h0, hd.1⟩
    rw [← k.find]
    congr 1
    simp only [pidOf, Pair.cfg, Pair.pid, k.cert, k.addr rfl, Bool.not_true]
  have e := (pong_hs (P.cfg true) x 1 ⟨P.addr false, passiveNonce⟩ draw 0 hh (by rw [hn]; exact hv) (hd.2.2.2 rfl)).1 (by rw [hn]; exact hlt)
  obtain ⟨f, e⟩ := e
  generalize pongClosure (P.cfg true) x 1 ⟨P.addr false, passiveNonce⟩ draw = y at e f
  have hp : y.peers 0 = finished (x.peers 0) 1 := by rw [f.peers, upd_self]
  refine ⟨f.n.trans k.n, f.known.trans k.known, f.posted.trans k.posted, (f.fix 1).active.trans k.act,
    fun h => (f.fix 1).addr.trans (k.addr h),
    (f.fix 1).cert.trans k.cert, (f.fix 1).setUp.trans k.setUp, ⟨(f.fix 0).term.trans k.torn0.1, (f.fix 0).torn.trans k.torn0.2⟩,
    by rw [(e 0).2]; simpa using k.out0, by simp, fun _ => ?_, ?_, by simp, fun _ => ?_, by rw [(e 1).1]; exact k.asked,
    (f.fix 1).term.trans k.term⟩
  · obtain ⟨l, e1, hl⟩ := k.out rfl
    rw [(e 1).2, e1]
    refine ⟨l ++ [.ping heartbeat], by simp, ?_⟩
    intro m hm
    rcases List.mem_append.1 hm with hm | hm
    · exact hl m hm
    · simp only [List.mem_singleton] at hm; subst hm; rfl
  · intro p
    rw [f.peers]
    simp only [upd_apply]
    split
    · simp [finished]
    · exact k.calm p
  · rw [hp, f.cbs, hd.2.1]
    exact ⟨rfl, rfl, rfl⟩

/-- The pair. -/
structure Solo (P : Pair) (v : Nat) (n : Net) : Prop where
  t : Half P true (.ping ⟨P.addr true, v⟩) (n.node true) (decide (0 < n.got true 1)) true
  f : Half P false (.pong ⟨P.addr false, passiveNonce⟩) (n.node false) (decide (0 < n.got false 1)) (decide (0 < n.got false 1))
  nt : n.got true 1 = 0 → ((n.node true).peers 0).nonce = v ∧ ((n.node true).peers 0).addr = P.addr false
  nf : n.got false 1 = 0 → ((n.node false).peers 0).nonce = passiveNonce ∧ ((n.node false).peers 0).addr = 0

theorem solo_step {P : Pair} {v : Nat} {n n' : Net} {a : Act} (k : Solo P v n) (hv : v ≠ 0) (hlt : v < passiveNonce) (ha : ∀ s, P.addr s ≠ 0)
    (h : step P soloMate n a = some n') : Solo P v n' := by
  have common : ∀ s, (n.node s).n = 2 ∧ (n.node s).posted = [] ∧ (((n.node s).conns 0).term = true ∧ ((n.node s).conns 0).torn = true) ∧ ((n.node s).conns 0).out = [] ∧
      ((n.node s).conns 1).asked = false ∧ ((n.node s).conns 1).term = false ∧ Calm (n.node s) := by
    intro s
    cases s with
    | true => exact ⟨k.t.n, k.t.posted, k.t.torn0, k.t.out0, k.t.asked, k.t.term, k.t.calm⟩
    | false => exact ⟨k.f.n, k.f.posted, k.f.torn0, k.f.out0, k.f.asked, k.f.term, k.f.calm⟩
  cases a with
  | deliver s c draw =>
    simp only [step] at h
    split at h
    · cases h
    rename_i m hm
    have hx : ∃ x, PeerNet.step (P.cfg s) (n.node s) (handle c draw m) = some x ∧ n' = ({ setNode n s x with got := fun t d => if t = s ∧ d = c then n.got t d + 1 else n.got t d } : Net) := by
      cases hx : PeerNet.step (P.cfg s) (n.node s) (handle c draw m) with
      | none => rw [hx] at h; cases h
      | some x => rw [hx] at h; exact ⟨x, rfl, by simpa using h.symm⟩
    obtain ⟨x, hx, e⟩ := hx
    have hc2 : c < 2 := by
      have : c < (n.node s).n := by
        cases m <;> simp only [handle, PeerNet.step] at hx <;> split at hx <;> simp_all
      rwa [(common s).1] at this
    have hc : c = 1 := by
      have : c ≠ 0 := by
        intro h0
        subst h0
        simp only [next, soloMate, (common (!s)).2.2.2.1] at hm
        cases hm
      omega
    subst hc
    have hx' : x = (match m with
        | .ping h => pingClosure (P.cfg s) (n.node s) 1 h draw
        | .pong h => pongClosure (P.cfg s) (n.node s) 1 h draw) := by
      cases m <;> simp only [handle, PeerNet.step] at hx <;> split at hx <;> simp_all
    have hsoft : Beat m → Soft 1 (n.node s) x := by
      intro hb
      rw [hx']
      cases m with
      | ping h => exact soft_ping _ _ _ _ _ hb
      | pong h => exact soft_pong _ _ _ _ _ hb (common s).2.2.2.2.2.2
    simp only [next, soloMate] at hm
    cases s with
    | true =>
      have n1 : n'.node true = x := by rw [e]; rfl
      have n2 : n'.node false = n.node false := by rw [e]; rfl
      have g1 : n'.got true 1 = n.got true 1 + 1 := by rw [e]; simp
      have g2 : n'.got false 1 = n.got false 1 := by rw [e]; simp
      have hq : 0 < n.got false 1 := by
        apply Classical.byContradiction
        intro h0
        have := k.f.outn (by simpa using h0)
        simp only [Bool.not_true, this] at hm
        cases hm
      refine ⟨?_, by rw [n2, g2]; exact k.f, by rw [g1]; simp, by rw [n2, g2]; exact k.nf⟩
      rw [n1, g1]
      simp only [Nat.zero_lt_succ, decide_true]
      obtain ⟨l, el, hb⟩ := k.f.out (by simpa using hq)
      simp only [Bool.not_true, el] at hm
      by_cases h0 : n.got true 1 = 0
      · rw [h0] at hm
        simp only [List.getElem?_cons_zero, Option.some.injEq] at hm
        subst hm
        rw [hx']
        refine Half.pong hv hlt (ha _) draw (by simpa [h0] using k.t) (k.nt h0).1 (k.nt h0).2
      · obtain ⟨j, hj⟩ := Nat.exists_eq_succ_of_ne_zero h0
        rw [hj] at hm
        simp only [List.getElem?_cons_succ] at hm
        have := k.t.soft (hsoft (hb m (List.mem_of_getElem? hm))) rfl
        simpa [Nat.pos_of_ne_zero h0] using this
    | false =>
      have n1 : n'.node false = x := by rw [e]; rfl
      have n2 : n'.node true = n.node true := by rw [e]; rfl
      have g1 : n'.got false 1 = n.got false 1 + 1 := by rw [e]; simp
      have g2 : n'.got true 1 = n.got true 1 := by rw [e]; simp
      refine ⟨by rw [n2, g2]; exact k.t, ?_, by rw [n2, g2]; exact k.nt, by rw [g1]; simp⟩
      rw [n1, g1]
      simp only [Nat.zero_lt_succ, decide_true]
      obtain ⟨l, el, hb⟩ := k.t.out rfl
      simp only [Bool.not_false, el] at hm
      by_cases h0 : n.got false 1 = 0
      · rw [h0] at hm
        simp only [List.getElem?_cons_zero, Option.some.injEq] at hm
        subst hm
        rw [hx']
        exact Half.ping hv (ha _) draw (by simpa [h0] using k.f) (k.nf h0).1 (k.nf h0).2
      · obtain ⟨j, hj⟩ := Nat.exists_eq_succ_of_ne_zero h0
        rw [hj] at hm
        simp only [List.getElem?_cons_succ] at hm
        have := k.f.soft (hsoft (hb m (List.mem_of_getElem? hm))) (by simp; omega)
        simpa [Nat.pos_of_ne_zero h0] using this
  | lost s c =>
    simp only [step] at h
    split at h
    · rename_i hc
      simp only [PeerNet.step] at h
      split at h
      · rename_i hc2
        rw [(common s).1] at hc2
        have : c = 0 ∨ c = 1 := by omega
        rcases this with rfl | rfl
        · rw [(common s).2.2.1.1] at hc2; simp at hc2
        · simp [soloMate, (common s).2.2.2.2.1, (common (!s)).2.2.2.2.2.1] at hc
      · cases h
    · cases h
  | teardown s c =>
    simp only [step, PeerNet.step] at h
    split at h
    · rename_i hc
      rw [(common s).1] at hc
      have : c = 0 ∨ c = 1 := by omega
      rcases this with rfl | rfl
      · -- the placeholder is torn down already
        rw [(common s).2.2.1.2] at hc; simp at hc
      · rw [(common s).2.2.2.2.2.1] at hc; simp at hc
    · cases h
  | deferred s draw =>
    simp only [step, PeerNet.step, (common s).2.1] at h
    cases h

theorem solo_start {P : Pair} {ntry : Int} {draw : BitVec 16} {n : Net} (ha : ∀ s, P.addr s ≠ 0)
    (h : Start P (fun s => soloPrefix P s ntry draw) n) : Solo P (draw.toNat + 1) n := by
  have ht := h.1 true
  have hf := h.1 false
  have hp : P.port true ≠ 0 := by
    intro hp
    revert hf
    simp [soloPrefix, PeerNet.run, PeerNet.step, hp]
  have hn : ntry ≠ 0 := by
    intro hn
    revert ht
    simp [soloPrefix, PeerNet.run, PeerNet.step, hn, init, addPeer, find, setPeerAddr, connPeer, setPeer, newPeer, ha]
  have hpid : (if P.certMode = true then P.hashCert (P.cert false) else P.hashAddr (P.addr false)) = P.pid false := rfl
  have kt : Half P true (.ping ⟨P.addr true, draw.toNat + 1⟩) (n.node true) false true ∧
      ((n.node true).peers 0).nonce = draw.toNat + 1 ∧ ((n.node true).peers 0).addr = P.addr false := by
    revert ht
    simp [soloPrefix, PeerNet.run, PeerNet.step, hn, init, addPeer, find, setPeerAddr, connPeer, setPeer, newPeer, ha, retryTimer,
      newConn, setup, setConn, upd, pidOf, Pair.cfg, hpid, dispTerminate?, send, getNonce]
    intro h
    rw [← h]
    refine ⟨⟨rfl, rfl, rfl, rfl, fun _ => rfl, rfl, rfl, ⟨rfl, rfl⟩, rfl, by simp, fun _ => ⟨_, rfl, by simp⟩, ?_,
      fun _ => ⟨rfl, rfl, rfl, fun _ => rfl⟩, by simp, rfl, rfl⟩, rfl, rfl⟩
    intro p; simp only [upd]; split <;> simp
  have kf : Half P false (.pong ⟨P.addr false, passiveNonce⟩) (n.node false) false false ∧
      ((n.node false).peers 0).nonce = passiveNonce ∧ ((n.node false).peers 0).addr = 0 := by
    revert hf
    simp [soloPrefix, PeerNet.run, PeerNet.step, hp, init, addPeer, find, newPeer, newConn, setup, setConn, upd]
    intro h
    rw [← h]
    refine ⟨⟨rfl, rfl, rfl, rfl, by simp, rfl, rfl, ⟨rfl, rfl⟩, rfl, fun _ => rfl, by simp, ?_,
      fun _ => ⟨rfl, rfl, rfl, by simp⟩, by simp, rfl, rfl⟩, rfl, rfl⟩
    intro p; simp only [upd]; split <;> simp
  exact ⟨by simpa [h.2] using kt.1, by simpa [h.2] using kf.1, fun _ => kt.2, fun _ => kf.2⟩

theorem solo_run {P : Pair} {v : Nat} (hv : v ≠ 0) (hlt : v < passiveNonce) (ha : ∀ s, P.addr s ≠ 0) :
    ∀ (l : List Act) (n n' : Net), Solo P v n → run P soloMate n l = some n' → Solo P v n'
  | [], n, n', k, h => by cases h; exact k
  | a :: l, n, n', k, h => by
    simp only [run] at h
    cases hx : step P soloMate n a with
    | none => rw [hx] at h; cases h
    | some m =>
      rw [hx] at h
      exact solo_run hv hlt ha l m n' (solo_step k hv hlt ha hx) h

open Spec.PeerPair

theorem half_uses {P : Pair} {s : Bool} {m : Msg} {n : Net} {d : Bool} (k : Half P s m (n.node s) true d) : uses P n s = some 1 := by
  obtain ⟨_, h2, h3⟩ := k.up rfl
  have : getPeerConn (n.node s) (P.pid (!s)) = some 1 := by simp [getPeerConn, k.find, h2]
  simp only [uses, this]
  simp [Spec.PeerNet.lastReport, h3]

theorem solo_uses {P : Pair} {v : Nat} {n : Net} (k : Solo P v n) (h : Processed [1] n) (s : Bool) : uses P n s = some 1 := by
  have hp : 0 < n.got s 1 := h s 1 (by simp)
  cases s with
  | true => exact half_uses (by simpa [hp] using k.t)
  | false => exact half_uses (by simpa [hp] using k.f)

theorem solo_settled {P : Pair} {v : Nat} {n : Net} (k : Solo P v n) (h : Settled P soloMate n) : Processed [1] n := by
  have h1 : 0 < n.got false 1 := by
    apply Classical.byContradiction
    intro h0
    have h0 : n.got false 1 = 0 := by omega
    obtain ⟨l, e, _⟩ := k.t.out rfl
    have := h (.deliver false 1 0#16)
    simp only [step, next, soloMate, Bool.not_false, e, h0, List.getElem?_cons_zero, handle, PeerNet.step, k.f.n, k.f.setUp] at this
    simp at this
  have h2 : 0 < n.got true 1 := by
    apply Classical.byContradiction
    intro h0
    have h0 : n.got true 1 = 0 := by omega
    obtain ⟨l, e, _⟩ := k.f.out (by simpa using h1)
    have := h (.deliver true 1 0#16)
    simp only [step, next, soloMate, Bool.not_true, e, h0, List.getElem?_cons_zero, handle, PeerNet.step, k.t.n, k.t.setUp] at this
    simp at this
  intro s c hc
  simp only [List.mem_singleton] at hc
  subst hc
  cases s with
  | true => exact h2
  | false => exact h1

end PeerPair
end Salticidae
