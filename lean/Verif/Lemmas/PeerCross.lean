import Verif.Lemmas.PeerPair
/-!
Crossing dials: what holds at each node, whatever the order in which the messages are processed.
-/
namespace Salticidae
namespace PeerPair
open PeerNet

/-- Connection `c` is the one that wins, at a node with nonce `v` whose peer has nonce `w`. -/
def Win (v w c : Nat) : Prop := (v < w ∧ c = 1) ∨ (w < v ∧ c = 2)

/-- A node has processed the message that connects it. -/
def Up (v w : Nat) (b1 b2 : Bool) : Prop := (v < w ∧ b1 = true) ∨ (w < v ∧ b2 = true)

/-- One node: `b1`, `b2` tell whether the handshake message on connections 1 and 2 has been processed. -/
structure Loc (P : Pair) (s : Bool) (v w : Nat) (x : St) (b1 b2 : Bool) : Prop where
  n : x.n = 3
  known : x.known = [(P.pid (!s), 0)]
  posted : x.posted = []
  act1 : (x.conns 1).active = true
  addr1 : (x.conns 1).addr = P.addr (!s)
  cert1 : (x.conns 1).cert = P.cert (!s)
  setUp1 : (x.conns 1).setUp = true
  act2 : (x.conns 2).active = false
  cert2 : (x.conns 2).cert = P.cert (!s)
  setUp2 : (x.conns 2).setUp = true
  torn0 : (x.conns 0).term = true ∧ (x.conns 0).torn = true
  paddr : (x.peers 0).addr = P.addr (!s)
  pre : (x.peers 0).preempt = none
  out1 : ∃ l, (x.conns 1).out = .ping ⟨P.addr s, v⟩ :: l ∧ ∀ m ∈ l, Beat m
  out2n : b2 = false → (x.conns 2).out = []
  out2 : b2 = true → ∃ l, (x.conns 2).out = .pong ⟨P.addr s, v⟩ :: l ∧ ∀ m ∈ l, Beat m
  out3 : (x.conns 3).out = []
  calm : Calm x
  down : ¬ Up v w b1 b2 → (x.peers 0).state = .disconnected ∧ ∀ c, (c, true) ∉ x.cbs
  fresh : ¬ Up v w b1 b2 → b1 = false ∨ b2 = false →
    (x.peers 0).nonce = v ∧ (x.peers 0).outbound = some 1 ∧ x.cbs = [] ∧ (b2 = false → (x.peers 0).inbound = none)
  up : Up v w b1 b2 → (x.peers 0).state = .connected ∧ Win v w (x.peers 0).conn ∧ x.cbs = [((x.peers 0).conn, true)]
  keep : ∀ c, Win v w c → (x.conns c).asked = false
  asked1 : (x.conns 1).asked = true → b1 = true
  asked2 : (x.conns 2).asked = true → b2 = true
  link1 : w < v → b2 = true → (x.conns 1).peer = none
  link2 : v ≤ w → (x.conns 2).peer = none
  only : ∀ d p, (x.conns d).peer = some p → p = 0

variable {P : Pair} {s : Bool} {v w : Nat} {x y : St} {b1 b2 : Bool}

theorem Loc.soft (k : Loc P s v w x b1 b2) {c : Nat} (h : Soft c x y) (hc : c = 1 ∨ c = 2 ∧ b2 = true) : Loc P s v w y b1 b2 := by
  obtain ⟨pa, ep⟩ := h.peers 0
  have app : ∀ d m l0, (x.conns d).out = m :: l0 → (∀ m ∈ l0, Beat m) → ∃ l, (y.conns d).out = m :: l ∧ ∀ m ∈ l, Beat m := by
    intro d m l0 e hl
    by_cases hd : d = c
    · subst hd
      obtain ⟨l, e', hl'⟩ := h.out
      refine ⟨l0 ++ l, by rw [e', e]; rfl, fun m hm => ?_⟩
      rcases List.mem_append.1 hm with hm | hm
      · exact hl m hm
      · exact hl' m hm
    · exact ⟨l0, by rw [h.other d hd, e], hl⟩
  refine ⟨h.n.trans k.n, h.known.trans k.known, h.posted.trans k.posted, (h.fix 1).active.trans k.act1,
    (h.fix 1).addr.trans k.addr1, (h.fix 1).cert.trans k.cert1, (h.fix 1).setUp.trans k.setUp1,
    (h.fix 2).active.trans k.act2, (h.fix 2).cert.trans k.cert2, (h.fix 2).setUp.trans k.setUp2,
    ⟨(h.fix 0).term.trans k.torn0.1, (h.fix 0).torn.trans k.torn0.2⟩, by rw [ep]; exact k.paddr, by rw [ep]; exact k.pre,
    ?_, ?_, ?_, ?_, h.calm k.calm, ?_, ?_, ?_, ?_, ?_, ?_, ?_, ?_, ?_⟩
  · obtain ⟨l, e, hl⟩ := k.out1; exact app 1 _ l e hl
  · intro hb
    rw [h.other 2 (by rcases hc with hc | hc; omega; simp [hb] at hc)]
    exact k.out2n hb
  · intro hb
    obtain ⟨l, e, hl⟩ := k.out2 hb; exact app 2 _ l e hl
  · rw [h.other 3 (by omega)]; exact k.out3
  · rw [ep, h.cbs]; exact k.down
  · rw [ep, h.cbs]; exact k.fresh
  · rw [ep, h.cbs]; exact k.up
  · intro c hc; rw [h.asked]; exact k.keep c hc
  · rw [h.asked]; exact k.asked1
  · rw [h.asked]; exact k.asked2
  · rw [h.link]; exact k.link1
  · rw [h.link]; exact k.link2
  · intro d p; rw [h.link]; exact k.only d p

/-- The worker has given a connection up. -/
theorem Loc.lost (k : Loc P s v w x b1 b2) (c : Nat) : Loc P s v w (setConn x c { x.conns c with term := true }) b1 b2 := by
  have e : ∀ d, ∃ b, (setConn x c { x.conns c with term := true }).conns d = { x.conns d with term := b } ∧ ((x.conns d).term = true → b = true) := by
    intro d
    simp only [setConn, upd_apply]
    split
    · rename_i h; subst h; exact ⟨true, rfl, fun _ => rfl⟩
    · exact ⟨_, rfl, fun h => h⟩
  obtain ⟨t0, e0, h0⟩ := e 0
  obtain ⟨t1, e1, _⟩ := e 1
  obtain ⟨t2, e2, _⟩ := e 2
  obtain ⟨t3, e3, _⟩ := e 3
  refine ⟨k.n, k.known, k.posted, by rw [e1]; exact k.act1, by rw [e1]; exact k.addr1, by rw [e1]; exact k.cert1,
    by rw [e1]; exact k.setUp1, by rw [e2]; exact k.act2, by rw [e2]; exact k.cert2, by rw [e2]; exact k.setUp2,
    by rw [e0]; exact ⟨h0 k.torn0.1, k.torn0.2⟩, k.paddr, k.pre, by rw [e1]; exact k.out1, by rw [e2]; exact k.out2n,
    by rw [e2]; exact k.out2, by rw [e3]; exact k.out3, k.calm, k.down, k.fresh, k.up, ?_, by rw [e1]; exact k.asked1,
    by rw [e2]; exact k.asked2, by rw [e1]; exact k.link1, by rw [e2]; exact k.link2, ?_⟩
  · intro c hc
    obtain ⟨b, e, _⟩ := e c
    rw [e]; exact k.keep c hc
  · intro d p
    obtain ⟨b, e, _⟩ := e d
    rw [e]; exact k.only d p

theorem find_one (k : Loc P s v w x b1 b2) : find x (P.pid (!s)) = some 0 := by
  simp [find, k.known]

/-- The handshake message on the connection that came in. -/
theorem Loc.ping (k : Loc P s v w x b1 b2) (hv : v ≠ 0) (hw : w ≠ 0) (ha : P.addr (!s) ≠ 0) (hb : b2 = false)
    (ht : (x.conns 2).term = false) (hst : (x.peers 0).state ≠ .connected) (draw : BitVec 16) :
    Loc P s v w (pingClosure (P.cfg s) x 2 ⟨P.addr (!s), w⟩ draw) b1 true := by
  subst hb
  have hu : ¬ Up v w b1 false := fun hu => hst (k.up hu).1
  have hd := k.down hu
  have hf := k.fresh hu (.inr rfl)
  have hh : InHs (P.cfg s) x 2 ⟨P.addr (!s), w⟩ 0 := by
    refine ⟨ht, ha, k.act2, ?_, hw⟩
    rw [← find_one k]
    congr 1
    simp only [pidOf, Pair.cfg, Pair.pid, k.cert2]
  have e := ping_hs (P.cfg s) x 2 ⟨P.addr (!s), w⟩ draw 0 hh hd.1 (by rw [hf.1]; exact hv) (.inl (hf.2.2.2 rfl))
  simp only [hf.1, k.paddr, ha, or_false] at e
  generalize pingClosure (P.cfg s) x 2 ⟨P.addr (!s), w⟩ draw = y at e
  have hcalm : ∀ z, y.peers = upd x.peers 0 z → z.pingTimerOk ≠ some true → Calm y := by
    intro z e hz p
    rw [e]
    simp only [upd_apply]
    split
    · exact hz
    · exact k.calm p
  by_cases hn : w < v
  · obtain ⟨f, e⟩ := e.1 hn
    have hp : y.peers 0 = finished { x.peers 0 with inbound := some 2 } 2 := by
      rw [f.peers, upd_self]; simp only [hf.1, k.paddr]
    have hc : y.cbs = [(2, true)] := by rw [f.cbs, hf.2.2.1]; rfl
    have hup : Up v w b1 true := .inr ⟨hn, rfl⟩
    refine ⟨f.n.trans k.n, f.known.trans k.known, f.posted.trans k.posted, (f.fix 1).active.trans k.act1,
      (f.fix 1).addr.trans k.addr1, (f.fix 1).cert.trans k.cert1, (f.fix 1).setUp.trans k.setUp1,
      (f.fix 2).active.trans k.act2, (f.fix 2).cert.trans k.cert2, (f.fix 2).setUp.trans k.setUp2,
      ⟨(f.fix 0).term.trans k.torn0.1, (f.fix 0).torn.trans k.torn0.2⟩, by rw [hp]; exact k.paddr, by rw [hp]; exact k.pre,
      ?_, by simp, ?_, ?_, hcalm _ f.peers (by simp [finished]), fun h => absurd hup h, fun h => absurd hup h, ?_, ?_, ?_, ?_, ?_, ?_, ?_⟩
    · rw [(e 1).2]; simpa using k.out1
    · intro _
      rw [(e 2).2, k.out2n rfl]
      exact ⟨_, rfl, by simp [Beat, heartbeat]⟩
    · rw [(e 3).2]; simpa using k.out3
    · intro _
      rw [hp]
      exact ⟨rfl, .inr ⟨hn, rfl⟩, hc⟩
    · intro c hc; rw [(e c).1]; exact k.keep c hc
    · rw [(e 1).1]; exact k.asked1
    · intro _; rfl
    · intro _ _
      rw [f.link]
      simp [hf.2.1]
    · intro h; omega
    · intro d p hq
      rw [f.link] at hq
      split at hq
      · simpa using hq.symm
      · split at hq
        · cases hq
        · exact k.only d p hq
  · obtain ⟨f, e⟩ := e.2 hn
    have hp : y.peers 0 = { x.peers 0 with inbound := some 2 } := by
      rw [f.peers, upd_self]; simp only [hf.1, k.paddr]
    have hup : ¬ Up v w b1 true := by
      rintro (h | h)
      · exact hu (.inl h)
      · exact hn h.1
    refine ⟨f.n.trans k.n, f.known.trans k.known, f.posted.trans k.posted, (f.fix 1).active.trans k.act1,
      (f.fix 1).addr.trans k.addr1, (f.fix 1).cert.trans k.cert1, (f.fix 1).setUp.trans k.setUp1,
      (f.fix 2).active.trans k.act2, (f.fix 2).cert.trans k.cert2, (f.fix 2).setUp.trans k.setUp2,
      ⟨(f.fix 0).term.trans k.torn0.1, (f.fix 0).torn.trans k.torn0.2⟩, by rw [hp]; exact k.paddr, by rw [hp]; exact k.pre,
      ?_, by simp, ?_, ?_, hcalm _ f.peers (k.calm 0), ?_, ?_, fun h => absurd h hup, ?_, ?_, ?_, ?_, ?_, ?_⟩
    · rw [(e 1).2]; simpa using k.out1
    · intro _
      rw [(e 2).2, k.out2n rfl]
      exact ⟨_, rfl, by simp⟩
    · rw [(e 3).2]; simpa using k.out3
    · intro _; rw [hp, f.cbs]; exact hd
    · intro _ _
      rw [hp, f.cbs]
      exact ⟨hf.1, hf.2.1, hf.2.2.1, by simp⟩
    · intro c hc
      rw [(e c).1, k.keep c hc]
      rcases hc with hc | hc
      · simp [hc.2]
      · omega
    · rw [(e 1).1]; simpa using k.asked1
    · intro _; rfl
    · intro h; omega
    · intro h; rw [f.link]; exact k.link2 h
    · intro d p; rw [f.link]; exact k.only d p

/-- The answer on the connection that was dialled. -/
theorem Loc.pong (k : Loc P s v w x b1 b2) (hv : v ≠ 0) (ha : P.addr (!s) ≠ 0) (hb : b1 = false)
    (ht : v < w → (x.conns 1).term = false) (draw : BitVec 16) :
    Loc P s v w (pongClosure (P.cfg s) x 1 ⟨P.addr (!s), w⟩ draw) true b2 := by
  subst hb
  by_cases hu : Up v w false b2
  · -- already connected
    have hh := k.up hu
    have hwv : w < v := by
      rcases hu with h | h
      · simp at h
      · exact h.1
    have e : pongClosure (P.cfg s) x 1 ⟨P.addr (!s), w⟩ draw = x := by
      unfold pongClosure
      split
      · rfl
      · have : find x (pidOf (P.cfg s) (x.conns 1) (x.conns 1).addr) = some 0 := by
          rw [← find_one k]
          congr 1
          simp only [pidOf, Pair.cfg, Pair.pid, k.cert1, k.addr1]
        simp only [k.act1, this, hh.1]
        simp
    rw [e]
    have hup : ∀ {b}, Up v w b b2 := by
      intro b
      rcases hu with h | h
      · simp at h
      · exact .inr h
    exact { k with
      down := fun h => absurd hup h
      fresh := fun h => absurd hup h
      up := fun _ => hh
      asked1 := fun _ => rfl }
  have hd := k.down hu
  have hf := k.fresh hu (.inl rfl)
  by_cases htt : (x.conns 1).term = true
  · -- the connection is gone
    have hvw : ¬ v < w := fun h => by rw [ht h] at htt; cases htt
    have e : pongClosure (P.cfg s) x 1 ⟨P.addr (!s), w⟩ draw = x := by
      unfold pongClosure
      rw [if_pos htt]
    rw [e]
    have hup : ¬ Up v w true b2 := by
      rintro (h | h)
      · exact hvw h.1
      · exact hu (.inr h)
    exact { k with
      down := fun _ => hd
      fresh := fun _ _ => hf
      up := fun h => absurd h hup
      asked1 := fun _ => rfl }
  simp only [Bool.not_eq_true] at htt
  have hh : OutHs (P.cfg s) x 1 ⟨P.addr (!s), w⟩ 0 := by
    refine ⟨htt, ha, k.act1, ?_, k.paddr, hd.1⟩
    rw [← find_one k]
    congr 1
    simp only [pidOf, Pair.cfg, Pair.pid, k.cert1, k.addr1]
  have e := pong_hs (P.cfg s) x 1 ⟨P.addr (!s), w⟩ draw 0 hh (by rw [hf.1]; exact hv) hf.2.1
  simp only [hf.1] at e
  generalize pongClosure (P.cfg s) x 1 ⟨P.addr (!s), w⟩ draw = y at e
  have hcalm : ∀ z, y.peers = upd x.peers 0 z → z.pingTimerOk ≠ some true → Calm y := by
    intro z e hz p
    rw [e]
    simp only [upd_apply]
    split
    · exact hz
    · exact k.calm p
  by_cases hn : v < w
  · obtain ⟨f, e⟩ := e.1 hn
    have hp : y.peers 0 = finished (x.peers 0) 1 := by rw [f.peers, upd_self]
    have hc : y.cbs = [(1, true)] := by rw [f.cbs, hf.2.2.1]; rfl
    have hup : Up v w true b2 := .inl ⟨hn, rfl⟩
    refine ⟨f.n.trans k.n, f.known.trans k.known, f.posted.trans k.posted, (f.fix 1).active.trans k.act1,
      (f.fix 1).addr.trans k.addr1, (f.fix 1).cert.trans k.cert1, (f.fix 1).setUp.trans k.setUp1,
      (f.fix 2).active.trans k.act2, (f.fix 2).cert.trans k.cert2, (f.fix 2).setUp.trans k.setUp2,
      ⟨(f.fix 0).term.trans k.torn0.1, (f.fix 0).torn.trans k.torn0.2⟩, by rw [hp]; exact k.paddr, by rw [hp]; exact k.pre,
      ?_, ?_, ?_, ?_, hcalm _ f.peers (by simp [finished]), fun h => absurd hup h, fun h => absurd hup h, ?_, ?_, ?_, ?_, ?_, ?_, ?_⟩
    · obtain ⟨l, e1, hl⟩ := k.out1
      rw [(e 1).2, e1]
      refine ⟨l ++ [.ping heartbeat], by simp, ?_⟩
      intro m hm
      rcases List.mem_append.1 hm with hm | hm
      · exact hl m hm
      · simp only [List.mem_singleton] at hm; subst hm; rfl
    · rw [(e 2).2]; simpa using k.out2n
    · rw [(e 2).2]; simpa using k.out2
    · rw [(e 3).2]; simpa using k.out3
    · intro _
      rw [hp]
      exact ⟨rfl, .inl ⟨hn, rfl⟩, hc⟩
    · intro c hc; rw [(e c).1]; exact k.keep c hc
    · intro _; rfl
    · rw [(e 2).1]; exact k.asked2
    · intro h; omega
    · intro h
      rw [f.link]
      simp only [Nat.reduceEqDiff, if_false, k.link2 h]
      split <;> rfl
    · intro d p hq
      rw [f.link] at hq
      split at hq
      · simpa using hq.symm
      · split at hq
        · cases hq
        · exact k.only d p hq
  · obtain ⟨f, e⟩ := e.2 hn
    have hp : y.peers 0 = x.peers 0 := by rw [f.peers, upd_self]
    have hup : ¬ Up v w true b2 := by
      rintro (h | h)
      · exact hn h.1
      · exact hu (.inr h)
    refine ⟨f.n.trans k.n, f.known.trans k.known, f.posted.trans k.posted, (f.fix 1).active.trans k.act1,
      (f.fix 1).addr.trans k.addr1, (f.fix 1).cert.trans k.cert1, (f.fix 1).setUp.trans k.setUp1,
      (f.fix 2).active.trans k.act2, (f.fix 2).cert.trans k.cert2, (f.fix 2).setUp.trans k.setUp2,
      ⟨(f.fix 0).term.trans k.torn0.1, (f.fix 0).torn.trans k.torn0.2⟩, by rw [hp]; exact k.paddr, by rw [hp]; exact k.pre,
      by rw [(e 1).2]; exact k.out1, by rw [(e 2).2]; exact k.out2n, by rw [(e 2).2]; exact k.out2, by rw [(e 3).2]; exact k.out3,
      hcalm _ f.peers (k.calm 0), ?_, ?_, fun h => absurd h hup, ?_, fun _ => rfl, ?_, ?_, ?_, ?_⟩
    · intro _; rw [hp, f.cbs]; exact hd
    · intro _ _
      rw [hp, f.cbs]
      exact hf
    · intro c hc
      rw [(e c).1, k.keep c hc]
      rcases hc with hc | hc
      · omega
      · simp [hc.2]
    · rw [(e 2).1]; simpa using k.asked2
    · rw [f.link]; exact k.link1
    · rw [f.link]; exact k.link2
    · intro d p; rw [f.link]; exact k.only d p

/-- A connection that does not win is torn down after all handshake messages have been processed. -/
theorem Loc.teardown (k : Loc P s v w x true true) (c : Nat) (hc : c < 3) (hw : ¬ Win v w c) (h0 : c ≠ 0) :
    Loc P s v w (teardown x c) true true := by
  obtain ⟨f, e⟩ := tear_eff x c
  generalize PeerNet.teardown x c = y at e f
  have hconns : ∀ d, ∃ b, y.conns d = { x.conns d with torn := b } ∧ ((x.conns d).torn = true → b = true) := by
    intro d
    rw [f.conns]
    simp only [upd_apply]
    split
    · rename_i h; subst h; exact ⟨true, rfl, fun _ => rfl⟩
    · exact ⟨_, rfl, fun h => h⟩
  obtain ⟨t0, e0, h00⟩ := hconns 0
  obtain ⟨t1, e1, _⟩ := hconns 1
  obtain ⟨t2, e2, _⟩ := hconns 2
  obtain ⟨t3, e3, _⟩ := hconns 3
  have main : y.posted = [] → (y.peers 0).addr = P.addr (!s) → (y.peers 0).preempt = none → Calm y →
      (¬ Up v w true true → (y.peers 0).state = .disconnected ∧ ∀ c, (c, true) ∉ y.cbs) →
      (Up v w true true → (y.peers 0).state = .connected ∧ Win v w (y.peers 0).conn ∧ y.cbs = [((y.peers 0).conn, true)]) →
      Loc P s v w y true true := by
    intro p1 p2 p3 p4 p5 p6
    refine ⟨f.n.trans k.n, f.known.trans k.known, p1, by rw [e1]; exact k.act1, by rw [e1]; exact k.addr1, by rw [e1]; exact k.cert1,
      by rw [e1]; exact k.setUp1, by rw [e2]; exact k.act2, by rw [e2]; exact k.cert2, by rw [e2]; exact k.setUp2,
      by rw [e0]; exact ⟨k.torn0.1, h00 k.torn0.2⟩, p2, p3, by rw [e1]; exact k.out1, by rw [e2]; exact k.out2n,
      by rw [e2]; exact k.out2, by rw [e3]; exact k.out3, p4, p5, by simp, p6, ?_, by rw [e1]; exact k.asked1,
      by rw [e2]; exact k.asked2, by rw [e1]; exact k.link1, by rw [e2]; exact k.link2, ?_⟩
    · intro c hc
      obtain ⟨b, e, _⟩ := hconns c
      rw [e]; exact k.keep c hc
    · intro d p
      obtain ⟨b, e, _⟩ := hconns d
      rw [e]; exact k.only d p
  have nobody : y.peers = x.peers → y.posted = x.posted → y.cbs = x.cbs → Loc P s v w y true true := by
    intro p1 p2 p3
    refine main (by rw [p2]; exact k.posted) (by rw [p1]; exact k.paddr) (by rw [p1]; exact k.pre) ?_ (by rw [p1, p3]; exact k.down)
      (by rw [p1, p3]; exact k.up)
    intro q; rw [p1]; exact k.calm q
  have hlink : v ≠ w → (x.conns c).peer = none := by
    intro hne
    have h12 : c = 1 ∨ c = 2 := by omega
    rcases h12 with h | h
    · rw [h]; exact k.link1 (by
        have : ¬ v < w := fun q => hw (.inl ⟨q, h⟩)
        omega) rfl
    · rw [h]; exact k.link2 (by
        have : ¬ w < v := fun q => hw (.inr ⟨q, h⟩)
        omega)
  cases e with
  | nobody hp h1 h2 h3 h4 => exact nobody h1 h2 h3
  | ub p hp hm hf h1 h2 h3 h4 => exact nobody h1 h2 h3
  | preempt p h hp hm hf hh h1 h2 h3 h4 =>
    have := k.only c p hp
    subst this
    rw [k.pre] at hh; cases hh
  | backoff p hp hm hf hh h1 h2 h3 h4 =>
    have hvw : v = w := Classical.byContradiction fun hne => by rw [hlink hne] at hp; cases hp
    have := k.only c p hp
    subst this
    have hup : ¬ Up v w true true := by
      rintro (h | h) <;> omega
    have hb : ∀ z : Peer, (PeerNet.backoff z).addr = z.addr ∧ (PeerNet.backoff z).preempt = z.preempt ∧
        (PeerNet.backoff z).pingTimerOk = z.pingTimerOk ∧ (PeerNet.backoff z).state = z.state := by
      intro z
      unfold PeerNet.backoff
      simp only
      split <;> split <;> exact ⟨rfl, rfl, rfl, rfl⟩
    have hda : ∀ z : Peer, (disc z).addr = z.addr := by
      intro z; unfold disc; split <;> rfl
    have e0 : y.peers 0 = PeerNet.backoff (disc (x.peers 0)) := by rw [h1, upd_self]
    refine main (by rw [h2]; exact k.posted) ?_ ?_ ?_ ?_ (fun h => absurd h hup)
    · rw [e0, (hb _).1, hda]; exact k.paddr
    · rw [e0, (hb _).2.1, disc_preempt]; exact k.pre
    · intro q
      rw [h1]
      simp only [upd_apply]
      split
      · rw [(hb _).2.2.1, disc_pingTimerOk]; exact k.calm 0
      · exact k.calm q
    · intro _
      refine ⟨by rw [e0, (hb _).2.2.2, disc_state], fun d => ?_⟩
      rw [h3]
      simp only [List.mem_append, List.mem_singleton, Prod.mk.injEq, Bool.true_eq_false, and_false, or_false]
      exact (k.down hup).2 d

theorem ping_term (g : Cfg) (s : St) (c : Nat) (h : Hs) (draw : BitVec 16) (d : Nat) :
    ((pingClosure g s c h draw).conns d).term = (s.conns d).term := by
  cases ping_eff g s c h draw with
  | nop e _ => exact (e.fix d).term
  | unknown _ _ _ _ e => rw [e]; exact ((same_term _ c).fix d).term
  | preempt p _ _ e => exact (e.fix d).term
  | reject p _ _ _ e _ => exact (e.fix d).term
  | accept p _ _ _ e => exact (e.fix d).term

theorem pong_term (g : Cfg) (s : St) (c : Nat) (h : Hs) (draw : BitVec 16) (d : Nat) :
    ((pongClosure g s c h draw).conns d).term = (s.conns d).term := by
  cases pong_eff g s c h draw with
  | nop e => exact (e.fix d).term
  | reject p _ _ e _ => exact (e.fix d).term
  | accept p _ _ e => exact (e.fix d).term
  | ub p _ _ e _ =>
    obtain ⟨u, e | e, h⟩ := e
    · rw [h]; exact (e.fix d).term
    · rw [h]; exact (e.fix d).term
  | wait p _ _ _ e _ => exact (e.fix d).term
  | beat p _ _ _ _ _ e _ => exact (e.fix d).term
  | beatUb p _ _ _ _ e _ =>
    obtain ⟨u, e, h⟩ := e
    rw [h]; exact (e.fix d).term

/-- What holds of the pair; `v` gives the nonces. -/
structure Inv (P : Pair) (v : Bool → Nat) (n : Net) : Prop where
  loc : ∀ s, Loc P s (v s) (v (!s)) (n.node s) (decide (0 < n.got s 1)) (decide (0 < n.got s 2))
  ord : ∀ s, 0 < n.got s 1 → 0 < n.got (!s) 2
  gone1 : ∀ s, ((n.node s).conns 1).term = true → ¬ v s < v (!s) ∧ 0 < n.got (!s) 2
  gone2 : ∀ s, ((n.node s).conns 2).term = true → ¬ v (!s) < v s ∧ 0 < n.got s 2

/-- A node moves to `x`, having processed `b1`, `b2`. -/
theorem Inv.set {P : Pair} {v : Bool → Nat} {n n' : Net} (k : Inv P v n) (s : Bool) (x : St)
    (hn : ∀ t, n'.node t = if t = s then x else n.node t)
    (hg : ∀ t, t ≠ s → n'.got t = n.got t) (hm : ∀ c, n.got s c ≤ n'.got s c)
    (hl : Loc P s (v s) (v (!s)) x (decide (0 < n'.got s 1)) (decide (0 < n'.got s 2)))
    (ho : 0 < n'.got s 1 → 0 < n.got (!s) 2)
    (h1 : (x.conns 1).term = true → ¬ v s < v (!s) ∧ 0 < n.got (!s) 2)
    (h2 : (x.conns 2).term = true → ¬ v (!s) < v s ∧ 0 < n.got s 2) : Inv P v n' := by
  have hs : ∀ t, t = s ∨ t = !s := by intro t; cases t <;> cases s <;> simp
  have hns : (!s) ≠ s := by cases s <;> simp
  refine ⟨fun t => ?_, fun t => ?_, fun t => ?_, fun t => ?_⟩ <;> rcases hs t with rfl | rfl
  · rw [hn, if_pos rfl]; exact hl
  · rw [hn, if_neg hns, hg _ hns]; exact k.loc _
  · rw [hg _ hns]; exact ho
  · rw [hg _ hns, Bool.not_not]
    intro h
    have := k.ord _ h
    rw [Bool.not_not] at this
    exact Nat.lt_of_lt_of_le this (hm 2)
  · rw [hn, if_pos rfl, hg _ hns]; exact h1
  · rw [hn, if_neg hns]
    intro h
    have := k.gone1 _ h
    simp only [Bool.not_not] at this ⊢
    exact ⟨this.1, Nat.lt_of_lt_of_le this.2 (hm 2)⟩
  · rw [hn, if_pos rfl]
    intro h; exact ⟨(h2 h).1, Nat.lt_of_lt_of_le (h2 h).2 (hm 2)⟩
  · rw [hn, if_neg hns, hg _ hns]; exact k.gone2 _

open Spec.PeerPair

theorem inv_step {P : Pair} {v : Bool → Nat} {n n' : Net} {a : Act} (k : Inv P v n) (hv : ∀ s, v s ≠ 0) (ha : ∀ s, P.addr s ≠ 0)
    (h : step P crossMate n a = some n') (ht : Spec.PeerPair.NoTakeover P crossMate n a) (hl : LateTeardown [1, 2] n a) : Inv P v n' := by
  cases a with
  | deliver s c draw =>
    simp only [step] at h
    split at h
    · cases h
    rename_i m hm
    have hx : ∃ x, PeerNet.step (P.cfg s) (n.node s) (handle c draw m) = some x ∧ n' = ({ setNode n s x with got := fun t d => if t = s ∧ d = c then n.got t d + 1 else n.got t d } : Net) := by
      cases hx : PeerNet.step (P.cfg s) (n.node s) (handle c draw m) with
      | none => rw [hx] at h; cases h
      | some x => rw [hx] at h; exact ⟨x, rfl, by simpa using h.symm⟩
    obtain ⟨x, hx, e⟩ := hx
    have hc3 : c < 3 := by
      have : c < (n.node s).n := by
        cases m <;> simp only [handle, PeerNet.step] at hx <;> split at hx <;> simp_all
      rwa [(k.loc s).n] at this
    have hc : c = 1 ∨ c = 2 := by
      have : c ≠ 0 := by
        intro h0
        subst h0
        simp only [next, crossMate, Nat.sub_zero, (k.loc (!s)).out3] at hm
        cases hm
      omega
    have ls := k.loc s
    have lo := k.loc (!s)
    -- what the message is
    have hx' : x = (match m with
        | .ping h => pingClosure (P.cfg s) (n.node s) c h draw
        | .pong h => pongClosure (P.cfg s) (n.node s) c h draw) := by
      cases m <;> simp only [handle, PeerNet.step] at hx <;> split at hx <;> simp_all
    have hterm : ∀ d, (x.conns d).term = ((n.node s).conns d).term := by
      intro d
      rw [hx']
      cases m with
      | ping h => exact ping_term _ _ _ _ _ _
      | pong h => exact pong_term _ _ _ _ _ _
    have g1 : (x.conns 1).term = true → ¬ v s < v (!s) ∧ 0 < n.got (!s) 2 := by rw [hterm]; exact k.gone1 s
    have g2 : (x.conns 2).term = true → ¬ v (!s) < v s ∧ 0 < n.got s 2 := by rw [hterm]; exact k.gone2 s
    have hn : ∀ t, n'.node t = if t = s then x else n.node t := by intro t; rw [e]; rfl
    have hg : ∀ t d, n'.got t d = if t = s ∧ d = c then n.got t d + 1 else n.got t d := by intro t d; rw [e]
    have hsoft : Beat m → Soft c (n.node s) x := by
      intro hb
      rw [hx']
      cases m with
      | ping h => exact soft_ping _ _ _ _ _ hb
      | pong h => exact soft_pong _ _ _ _ _ hb ls.calm
    have hgt : ∀ t, t ≠ s → n'.got t = n.got t := by
      intro t ht; funext d; rw [hg, if_neg (fun h => ht h.1)]
    have hgm : ∀ d, n.got s d ≤ n'.got s d := by
      intro d; rw [hg]; split <;> omega
    simp only [next] at hm
    rcases hc with rfl | rfl
    · -- the dialled connection
      have e1 : n'.got s 1 = n.got s 1 + 1 := by rw [hg]; simp
      have e2 : n'.got s 2 = n.got s 2 := by rw [hg]; simp
      have hq : 0 < n.got (!s) 2 := by
        apply Classical.byContradiction
        intro h0
        have := lo.out2n (by simpa using h0)
        simp only [crossMate, Nat.reduceSub, this] at hm
        cases hm
      obtain ⟨l, el, hb⟩ := lo.out2 (by simpa using hq)
      simp only [crossMate, Nat.reduceSub, el] at hm
      by_cases h0 : n.got s 1 = 0
      · rw [h0] at hm
        simp only [List.getElem?_cons_zero, Option.some.injEq] at hm
        subst hm
        refine k.set s x hn hgt hgm ?_ (fun _ => hq) g1 g2
        rw [e1, e2, hx']
        simp only [Nat.zero_lt_succ, decide_true]
        exact ls.pong (hv s) (ha _) (by simp [h0]) (fun hlt => by
          cases hh : ((n.node s).conns 1).term with
          | false => rfl
          | true => exact absurd hlt (k.gone1 s hh).1) draw
      · obtain ⟨j, hj⟩ := Nat.exists_eq_succ_of_ne_zero h0
        rw [hj] at hm
        simp only [List.getElem?_cons_succ] at hm
        have hb : Beat m := hb m (List.mem_of_getElem? hm)
        refine k.set s x hn hgt hgm ?_ (fun _ => hq) g1 g2
        have := ls.soft (hsoft hb) (.inl rfl)
        rw [e1, e2]
        simpa [Nat.pos_of_ne_zero h0] using this
    · -- the one that came in
      have e1 : n'.got s 1 = n.got s 1 := by rw [hg]; simp
      have e2 : n'.got s 2 = n.got s 2 + 1 := by rw [hg]; simp
      obtain ⟨l, el, hb⟩ := lo.out1
      simp only [crossMate, Nat.reduceSub, el] at hm
      by_cases h0 : n.got s 2 = 0
      · have hm' := hm
        rw [h0] at hm
        simp only [List.getElem?_cons_zero, Option.some.injEq] at hm
        subst hm
        refine k.set s x hn hgt hgm ?_ (by rw [e1]; exact k.ord s) g1 g2
        rw [e1, e2, hx']
        simp only [Nat.zero_lt_succ, decide_true]
        refine ls.ping (hv s) (hv _) (ha _) (by simp [h0]) ?_ ?_ draw
        · cases hh : ((n.node s).conns 2).term with
          | false => rfl
          | true => have := (k.gone2 s hh).2; omega
        · have := ht _ (show next crossMate n s 2 = _ by simp only [next, crossMate, Nat.reduceSub, el]; exact hm')
          refine this (P.pid (!s)) 2 0 ?_ ls.act2 (find_one ls)
          simp only [Spec.PeerNet.identity, handle, ls.act2, ha, ne_eq, not_false_eq_true, and_self, if_true]
          simp only [pidOf, Pair.cfg, Pair.pid, ls.cert2]
      · obtain ⟨j, hj⟩ := Nat.exists_eq_succ_of_ne_zero h0
        rw [hj] at hm
        simp only [List.getElem?_cons_succ] at hm
        have hb : Beat m := hb m (List.mem_of_getElem? hm)
        refine k.set s x hn hgt hgm ?_ (by rw [e1]; exact k.ord s) g1 g2
        have := ls.soft (hsoft hb) (.inr ⟨rfl, by simp; omega⟩)
        rw [e1, e2]
        simpa [Nat.pos_of_ne_zero h0] using this
  | lost s c =>
    simp only [step] at h
    split at h
    · rename_i hc
      have hx : ∃ x, PeerNet.step (P.cfg s) (n.node s) (.lost c) = some x ∧ n' = setNode n s x := by
        cases hx : PeerNet.step (P.cfg s) (n.node s) (.lost c) with
        | none => rw [hx] at h; cases h
        | some x => rw [hx] at h; exact ⟨x, rfl, by simpa using h.symm⟩
      obtain ⟨x, hx, e⟩ := hx
      simp only [PeerNet.step] at hx
      split at hx
      · rename_i hc2
        simp only [Option.some.injEq] at hx
        subst hx e
        have ls := k.loc s
        have lo := k.loc (!s)
        refine k.set s _ (fun _ => rfl) (fun _ _ => rfl) (fun _ => Nat.le_refl _) (ls.lost c) (k.ord s) ?_ ?_
        · simp only [setConn, upd_apply]
          split
          · rename_i h1
            subst h1
            intro _
            rcases hc with hc | hc
            · refine ⟨fun hlt => ?_, k.ord s (by simpa using ls.asked1 hc)⟩
              rw [ls.keep 1 (.inl ⟨hlt, rfl⟩)] at hc; cases hc
            · have := k.gone2 (!s) hc
              simpa using this
          · exact k.gone1 s
        · simp only [setConn, upd_apply]
          split
          · rename_i h1
            subst h1
            intro _
            rcases hc with hc | hc
            · refine ⟨fun hlt => ?_, by simpa using ls.asked2 hc⟩
              rw [ls.keep 2 (.inr ⟨hlt, rfl⟩)] at hc; cases hc
            · have := k.gone1 (!s) hc
              simpa using this
          · exact k.gone2 s
      · cases hx
    · cases h
  | teardown s c =>
    simp only [step] at h
    have hx : ∃ x, PeerNet.step (P.cfg s) (n.node s) (.teardown c) = some x ∧ n' = setNode n s x := by
      cases hx : PeerNet.step (P.cfg s) (n.node s) (.teardown c) with
      | none => rw [hx] at h; cases h
      | some x => rw [hx] at h; exact ⟨x, rfl, by simpa using h.symm⟩
    obtain ⟨x, hx, e⟩ := hx
    simp only [PeerNet.step] at hx
    split at hx
    · rename_i hc
      simp only [Option.some.injEq] at hx
      have ls := k.loc s
      have p1 : 0 < n.got s 1 := hl s 1 (by simp)
      have p2 : 0 < n.got s 2 := hl s 2 (by simp)
      have h0 : c ≠ 0 := by
        intro h; subst h; rw [ls.torn0.2] at hc; simp at hc
      have hw : ¬ Win (v s) (v (!s)) c := by
        rintro (⟨hlt, rfl⟩ | ⟨hlt, rfl⟩)
        · exact (k.gone1 s hc.2.1).1 hlt
        · exact (k.gone2 s hc.2.1).1 hlt
      have htm : ∀ d, (x.conns d).term = ((n.node s).conns d).term := by
        intro d
        rw [← hx, (tear_eff _ c).1.conns]
        simp only [upd_apply]
        split
        · rename_i h; rw [h]
        · rfl
      refine k.set s x (fun t => by rw [e]; rfl) (fun t _ => by rw [e]; rfl) (fun _ => by rw [e]; exact Nat.le_refl _) ?_
        (by rw [e]; exact k.ord s) (by rw [htm]; exact k.gone1 s) (by rw [htm]; exact k.gone2 s)
      rw [e]
      simp only [setNode, p1, p2, decide_true]
      rw [← hx]
      refine Loc.teardown (by simpa [p1, p2] using ls) c (by rw [← ls.n]; exact hc.1) hw h0
    · cases hx
  | deferred s draw =>
    simp only [step, PeerNet.step, (k.loc s).posted] at h
    cases h

theorem start_loc {P : Pair} {s : Bool} {ntry : Int} {draw : BitVec 16} {x : St} (ha : P.addr (!s) ≠ 0)
    (h : PeerNet.run (P.cfg s) init (crossPrefix P s ntry draw) = some x) (w : Nat) :
    Loc P s (draw.toNat + 1) w x false false ∧ (x.conns 1).term = false ∧ (x.conns 2).term = false := by
  have hp : P.port (!s) ≠ 0 := by
    intro hp
    revert h
    simp [crossPrefix, PeerNet.run, PeerNet.step, hp]
  have hn : ntry ≠ 0 := by
    intro hn
    revert h
    simp [crossPrefix, PeerNet.run, PeerNet.step, hn, init, addPeer, find, setPeerAddr, connPeer, setPeer, newPeer, ha]
  have hpid : (if P.certMode = true then P.hashCert (P.cert (!s)) else P.hashAddr (P.addr (!s))) = P.pid (!s) := rfl
  revert h
  simp [crossPrefix, PeerNet.run, PeerNet.step, hn, hp, init, addPeer, find, setPeerAddr, connPeer, setPeer, newPeer, ha, retryTimer,
    newConn, setup, setConn, upd, pidOf, Pair.cfg, hpid, dispTerminate?, send, getNonce]
  intro h
  subst h
  refine ⟨⟨rfl, rfl, rfl, ?_, ?_, ?_, ?_, ?_, ?_, ?_, ?_, ?_, ?_, ?_, ?_, ?_, ?_, ?_, ?_, ?_, ?_, ?_, ?_, ?_, ?_, ?_, ?_⟩, ?_, ?_⟩
  all_goals first | rfl | (simp [Up, upd]; done) | skip
  · intro p; simp only [upd]; split <;> simp
  · rintro c (⟨_, rfl⟩ | ⟨_, rfl⟩) <;> rfl
  · intro d p h
    simp only [upd] at h
    split at h
    · cases h
    · split at h
      · cases h; rfl
      · split at h
        · simpa using h.symm
        · cases h

theorem start_inv {P : Pair} {ntry : Bool → Int} {draw : Bool → BitVec 16} {n : Net} (ha : ∀ s, P.addr s ≠ 0)
    (h : Start P (fun s => crossPrefix P s (ntry s) (draw s)) n) : Inv P (fun s => (draw s).toNat + 1) n := by
  have k : ∀ s, _ := fun s => start_loc (ha (!s)) (h.1 s) ((draw (!s)).toNat + 1)
  refine ⟨fun s => ?_, fun s => ?_, fun s => ?_, fun s => ?_⟩
  · simpa [h.2] using (k s).1
  · simp [h.2]
  · simp [(k s).2.1]
  · simp [(k s).2.2]

theorem inv_run {P : Pair} {v : Bool → Nat} (hv : ∀ s, v s ≠ 0) (ha : ∀ s, P.addr s ≠ 0) :
    ∀ (l : List Act) (n n' : Net), Inv P v n → run P crossMate n l = some n' →
      (∀ e ∈ trace P crossMate n l, Spec.PeerPair.NoTakeover P crossMate e.1 e.2 ∧ LateTeardown [1, 2] e.1 e.2) → Inv P v n'
  | [], n, n', k, h, _ => by cases h; exact k
  | a :: l, n, n', k, h, ht => by
    simp only [run] at h
    cases hx : step P crossMate n a with
    | none => rw [hx] at h; cases h
    | some m =>
      rw [hx] at h
      simp only [trace, hx, List.mem_cons, forall_eq_or_imp] at ht
      exact inv_run hv ha l m n' (inv_step k hv ha hx ht.1.1 ht.1.2) h ht.2

theorem uses_win {P : Pair} {v : Bool → Nat} {n : Net} (k : Inv P v n) (s : Bool) (c : Nat) (hw : Win (v s) (v (!s)) c)
    (h : Processed [1, 2] n) : uses P n s = some c := by
  have ls := k.loc s
  have p1 : 0 < n.got s 1 := h s 1 (by simp)
  have p2 : 0 < n.got s 2 := h s 2 (by simp)
  have hup : Up (v s) (v (!s)) (decide (0 < n.got s 1)) (decide (0 < n.got s 2)) := by
    rcases hw with hw | hw
    · exact .inl ⟨hw.1, by simpa using p1⟩
    · exact .inr ⟨hw.1, by simpa using p2⟩
  obtain ⟨_, h2, h3⟩ := ls.up hup
  have hc : ((n.node s).peers 0).conn = c := by
    rcases h2 with h2 | h2 <;> rcases hw with hw | hw <;> omega
  rw [hc] at h3
  have : getPeerConn (n.node s) (P.pid (!s)) = some c := by
    simp [getPeerConn, find_one ls, hc]
  simp only [uses, this]
  simp [Spec.PeerNet.lastReport, h3]

theorem uses_none {P : Pair} {v : Bool → Nat} {n : Net} (k : Inv P v n) (s : Bool) (hw : v s = v (!s)) : uses P n s = none := by
  have ls := k.loc s
  have hup : ¬ Up (v s) (v (!s)) (decide (0 < n.got s 1)) (decide (0 < n.got s 2)) := by
    rintro (h | h) <;> omega
  simp only [uses]
  split
  · rfl
  · rename_i c hc
    rw [if_neg]
    intro h
    apply (ls.down hup).2 c
    simp only [Spec.PeerNet.lastReport, Option.map_eq_some_iff] at h
    obtain ⟨e, he, hb⟩ := h
    have := List.mem_of_getLast? he
    simp only [List.mem_filter, decide_eq_true_eq] at this
    rw [← hb, ← this.2]
    exact this.1

theorem settled_processed {P : Pair} {v : Bool → Nat} {n : Net} (k : Inv P v n) (h : Settled P crossMate n) : Processed [1, 2] n := by
  have h2 : ∀ s, 0 < n.got s 2 := by
    intro s
    apply Classical.byContradiction
    intro h0
    have h0 : n.got s 2 = 0 := by omega
    obtain ⟨l, e, _⟩ := (k.loc (!s)).out1
    have := h (.deliver s 2 0#16)
    simp only [step, next, crossMate, Nat.reduceSub, e, h0, List.getElem?_cons_zero, handle, PeerNet.step, (k.loc s).n,
      (k.loc s).setUp2] at this
    simp at this
  have h1 : ∀ s, 0 < n.got s 1 := by
    intro s
    apply Classical.byContradiction
    intro h0
    have h0 : n.got s 1 = 0 := by omega
    obtain ⟨l, e, _⟩ := (k.loc (!s)).out2 (by simpa using h2 (!s))
    have := h (.deliver s 1 0#16)
    simp only [step, next, crossMate, Nat.reduceSub, e, h0, List.getElem?_cons_zero, handle, PeerNet.step, (k.loc s).n,
      (k.loc s).setUp1] at this
    simp at this
  intro s c hc
  simp only [List.mem_cons, List.not_mem_nil, or_false] at hc
  rcases hc with rfl | rfl
  · exact h1 s
  · exact h2 s

end PeerPair
end Salticidae
