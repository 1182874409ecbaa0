import Verif.Lemmas.PeerBeat
import Verif.Props.PeerLife
/-!
C86: the heartbeat of a node.
-/
namespace Salticidae
open PeerNet Spec.PeerNet

/-! ### C86 -/

/-- A node with an address of its own sends over each connection exactly the heartbeat pings that its observer expects, and the ping
timer of a peer runs only while the peer is reported connected over a connection that has not been torn down. -/
def C86_statement : Prop := ∀ (g : Cfg) (l : List Act) (s : St), run g init l = some s → g.listenAddr ≠ 0 →
  (∀ c, c < s.n → (s.conns c).out.count (.ping heartbeat) = rounds g c (trace g init l)) ∧
  (∀ pid p, find s pid = some p → (s.peers p).pingArmed = true →
    ∃ c, getPeerConn s pid = some c ∧ (s.conns c).torn = false ∧ lastReport s c = some true)

/-- A heartbeat period passes without an answer, the connection is lost and the peer is dialled again; its first message over
the new connection is a heartbeat answer. -/
def earlyRun : List Act := [.addPeer 5, .setAddr 5 5, .connPeer 5 (-1), .retry 0, .established 1 0 0#16, .pong 1 ⟨5, 7⟩ 0#16,
  .pingTimer 0, .lost 1, .teardown 1, .retry 0, .established 2 0 0#16, .pong 2 ⟨0, 0⟩ 0#16]

/-- Then a ping is sent over the old connection, which has been torn down. -/
theorem C86_violated : ¬ C86_statement := by
  intro h
  have e : (run byAddr init earlyRun).map (fun s => (s.n, (s.conns 1).out.count (.ping heartbeat), (s.conns 1).torn)) =
      some (3, 2, true) := by decide +kernel
  have e' : rounds byAddr 1 (trace byAddr init earlyRun) = 1 := by decide +kernel
  cases hr : run byAddr init earlyRun with
  | none => rw [hr] at e; simp at e
  | some s =>
    rw [hr] at e
    simp only [Option.map_some, Option.some.injEq, Prod.mk.injEq] at e
    have := (h _ _ s hr (by decide)).1 1 (by omega)
    rw [e.2.1, e'] at this; cases this

/-- And the ping timer of the peer, which is not connected, is started. -/
theorem C86_violated_timer : ¬ C86_statement := by
  intro h
  have e : (run byAddr init earlyRun).map (fun s => (find s 5, (s.peers 0).pingArmed, getPeerConn s 5, (s.conns 1).torn)) =
      some (some 0, true, some 1, true) := by decide +kernel
  cases hr : run byAddr init earlyRun with
  | none => rw [hr] at e; simp at e
  | some s =>
    rw [hr] at e
    simp only [Option.map_some, Option.some.injEq, Prod.mk.injEq] at e
    obtain ⟨c, h1, h2, _⟩ := (h _ _ s hr (by decide)).2 5 0 e.1 e.2.1
    rw [e.2.2.1] at h1
    injection h1 with h1
    subst h1
    rw [e.2.2.2] at h2; cases h2

theorem clean_run (g : Cfg) (l : List Act) (s : St) (h : run g init l = some s) : Clean s := by
  revert l s
  exact run_ind clean_init (fun l s a t hr b ih ht => clean_step b ih ht)

theorem pulse_run (who : Nat → Nat) (g : Cfg) (l : List Act) (s : St) (h : run g init l = some s) :
    (∀ x ∈ trace g init l, Orderly who g x.1 x.2 ∧ Polite x.1 x.2) → Pulse s := by
  revert l s
  refine run_ind (fun _ => pulse_init) ?_
  intro l s a t hr b ih ht ho
  rw [trace_snoc hr] at ho
  have h1 := fun x hx => ho x (List.mem_append_left _ hx)
  exact pulse_step b (cbs_lt g l s hr) (ord_run who g l s hr (fun x hx => (h1 x hx).1)) (ih h1)
    (ho (s, a) (List.mem_append_right _ (by simp))).2 ht

theorem rounds_run (who : Nat → Nat) (g : Cfg) (hg : g.listenAddr ≠ 0) (l : List Act) (s : St) (h : run g init l = some s) :
    (∀ x ∈ trace g init l, Orderly who g x.1 x.2 ∧ Polite x.1 x.2) →
    (∀ c, c < s.n → (trace g init l).foldl (watch g c) (none, 0) = (flags s c, pings (s.conns c).out)) ∧
    (∀ c, s.n ≤ c → (trace g init l).foldl (watch g c) (none, 0) = (none, 0)) := by
  revert l s
  refine run_ind (fun _ => ⟨by simp [init], fun _ _ => rfl⟩) ?_
  intro l s a t hr b ih ht ho
  have hp := pulse_run who g l s hr
  have hp' := pulse_run who g (l ++ [a]) t (run_append.mpr ⟨s, hr, by simp [run, ht]⟩) ho
  rw [trace_snoc hr] at ho ⊢
  have h1 := fun x hx => ho x (List.mem_append_left _ hx)
  have hpol := (ho (s, a) (List.mem_append_right _ (by simp))).2
  have o := ord_run who g l s hr (fun x hx => (h1 x hx).1)
  have hcl := cbs_lt g l s hr
  have k := clean_run g l s hr
  obtain ⟨i1, i2⟩ := ih h1
  obtain ⟨f, f1, f2, f3⟩ := out_step b k ht
  refine ⟨fun c hc => ?_, fun c hc => ?_⟩
  · rw [List.foldl_append]
    simp only [List.foldl_cons, List.foldl_nil]
    by_cases hcs : c < s.n
    · rw [i1 c hcs, watch_step b hcl o (hp h1) hpol ht hp' hcs, f1 c hcs, pings_append, (f3 c hcs).2 hg]
    · have hw := watch_new (n := 0) b hcl ht (Nat.le_of_not_lt hcs)
      rw [i2 c (Nat.le_of_not_lt hcs), hw.1, f2 c (Nat.le_of_not_lt hcs) hc, hw.2]; rfl
  · have hn := (life_step ht).n
    rw [List.foldl_append, i2 c (by omega)]
    exact (watch_new (n := 0) b hcl ht (by omega)).1

/-- In orderly and polite histories the heartbeat is as promised.  Missing: other histories, see `C86_violated`. -/
theorem C86_heartbeat_partial (who : Nat → Nat) (g : Cfg) (l : List Act) (s : St) (h : run g init l = some s) (hg : g.listenAddr ≠ 0)
    (ho : ∀ x ∈ trace g init l, Orderly who g x.1 x.2 ∧ Polite x.1 x.2) :
    (∀ c, c < s.n → (s.conns c).out.count (.ping heartbeat) = rounds g c (trace g init l)) ∧
    (∀ pid p, find s pid = some p → (s.peers p).pingArmed = true →
      ∃ c, getPeerConn s pid = some c ∧ (s.conns c).torn = false ∧ lastReport s c = some true) := by
  refine ⟨fun c hc => ?_, fun pid p hf ha => ?_⟩
  · unfold rounds
    rw [(rounds_run who g hg l s h ho).1 c hc]; rfl
  · have hb := (basic_run basic_init h).find_iff.mp hf
    have hst := (pulse_run who g l s h ho).armed p ha
    have hu := (ord_run who g l s h (fun x hx => (ho x hx).1)).up p hb.1 hb.2.2 hst
    exact ⟨_, by simp [getPeerConn, hf], hu.1, hu.2.2.2.2⟩

/-- Two rounds on a dialled connection, the second without an answer, then a round on a connection from the peer. -/
def beatRun : List Act := [.addPeer 5, .setAddr 5 5, .connPeer 5 (-1), .retry 0, .established 1 0 0#16, .pong 1 ⟨5, 7⟩ 0#16,
  .ping 1 ⟨0, 0⟩ 0#16, .pong 1 ⟨0, 0⟩ 0#16, .pingTimer 0, .pingTimer 0, .lost 1, .ping 1 ⟨0, 0⟩ 0#16, .teardown 1, .accept 7 0,
  .established 2 0 0#16, .ping 2 ⟨5, 3⟩ 9#16, .pingTimer 0, .pong 2 ⟨0, 0⟩ 0#16]

example : (∀ x ∈ trace byAddr init beatRun, Orderly (fun _ => 5) byAddr x.1 x.2 ∧ Polite x.1 x.2) ∧
    (run byAddr init beatRun).map (fun s => ((s.conns 1).out.count (.ping heartbeat), (s.conns 2).out.count (.ping heartbeat),
      (s.conns 1).out.count (.pong heartbeat), (s.peers 0).pingArmed)) = some (2, 2, 1, true) ∧
    rounds byAddr 1 (trace byAddr init beatRun) = 2 ∧ rounds byAddr 2 (trace byAddr init beatRun) = 2 := by
  have h : (trace byAddr init beatRun).all (fun x => politeB x.1 x.2) = true := by decide +kernel
  rw [List.all_eq_true] at h
  exact ⟨fun x hx => ⟨orderly_check (by decide +kernel) x hx, polite_of_check (h x hx)⟩, by decide +kernel, by decide +kernel, by decide +kernel⟩

/-- In every history, every heartbeat ping that is received over a connection that is not terminated is answered, once, over that
connection, and there are no other heartbeat answers. -/
theorem C86_answered (g : Cfg) (l : List Act) (s : St) (h : run g init l = some s) (c : Nat) (hc : c < s.n) :
    (s.conns c).out.count (.pong heartbeat) = (trace g init l).countP (asks c) := by
  have key : (∀ c, c < s.n → pongs (s.conns c).out = (trace g init l).countP (asks c)) ∧
      ∀ c, s.n ≤ c → (trace g init l).countP (asks c) = 0 := by
    clear hc c
    revert l s
    refine run_ind ⟨by simp [init], fun _ _ => rfl⟩ ?_
    intro l s a t hr b ih ht
    obtain ⟨f, f1, f2, f3⟩ := out_step b (clean_run g l s hr) ht
    rw [trace_snoc hr]
    have hnew : ∀ c, s.n ≤ c → asks c (s, a) = false := by
      intro c hc
      unfold asks
      split
      · rename_i d x y ha
        simp only at ha; subst ha
        simp only [step] at ht
        split at ht
        · rename_i hd
          have : d ≠ c := by omega
          simp [this]
        · cases ht
      · rfl
    refine ⟨fun c hc => ?_, fun c hc => ?_⟩
    · rw [List.countP_append, List.countP_singleton]
      by_cases hcs : c < s.n
      · rw [f1 c hcs, pongs_append, (f3 c hcs).1, ih.1 c hcs]
      · rw [f2 c (by omega) hc, ih.2 c (by omega), hnew c (by omega)]; rfl
    · have hn := (life_step ht).n
      rw [List.countP_append, List.countP_singleton, ih.2 c (by omega), hnew c (by omega)]; rfl
  exact key.1 c hc

example : (run byAddr init beatRun).map (fun s => (decide (1 < s.n), (trace byAddr init beatRun).countP (asks 1))) = some (true, 1) := by
  decide +kernel

theorem waits_run (g : Cfg) (l : List Act) (s : St) (h : run g init l = some s) : ∀ p, Waits (s.peers p) := by
  revert l s
  refine run_ind (fun p => by simp [Waits, init, newPeer]) ?_
  intro l s a t hr b ih ht p
  exact one_up b ht p (ih p)

/-- In every history, the heartbeat of a connected peer does not stop: its ping timer runs, or it has expired and the first
heartbeat answer, over a connection to that peer, sends the next ping over the peer's connection and starts the timer again. -/
theorem C86_alive (g : Cfg) (l : List Act) (s : St) (h : run g init l = some s) (pid p c : Nat) (hf : find s pid = some p)
    (hst : (s.peers p).state = .connected) (hc : getPeerConn s pid = some c) : (s.peers p).pingArmed = true ∨
    ∀ d x draw t, (s.conns d).peer = some p → (s.conns d).term = false → x.claimed = 0 → step g s (.pong d x draw) = some t →
      (t.conns c).out = (s.conns c).out ++ [.ping heartbeat] ∧ (t.peers p).pingArmed = true := by
  have hb := (basic_run basic_init h).find_iff.mp hf
  have hc' : (s.peers p).conn = c := by simpa [getPeerConn, hf] using hc
  obtain ⟨h1, e, w, h2, h3, h4, h5⟩ := waits_run g l s h p (by rw [hst]; simp)
  cases e with
  | false =>
    left
    rcases h5 rfl with h5 | h5
    · exact h5
    · rw [hst] at h5; cases h5
  | true =>
    right
    intro d x draw t hp ht hz hs
    simp only [step] at hs
    split at hs
    rotate_left
    · cases hs
    injection hs with hs
    unfold pongClosure at hs
    rw [if_neg (by rw [ht]; simp), if_neg (by simp [hz])] at hs
    simp only [hp] at hs
    rw [if_neg (by rw [hb.2.2]; simp)] at hs
    have e1 : ((setPeer s p { s.peers p with pongOk := some true }).peers p).pingTimerOk = some true := by simp [setPeer, h2]
    have e2 : ((setPeer s p { s.peers p with pongOk := some true }).peers p).chosen = some c := by simp [setPeer, h1, hc']
    have e3 : (setPeer s p { s.peers p with pongOk := some true }).conns = s.conns := rfl
    simp only at hs e1 e2 e3
    generalize setPeer s p _ = s1 at *
    simp only [e1] at hs
    subst hs
    have := Outs.beat s1 p c
    simp only [e2, if_true, e3] at this
    refine ⟨this, ?_⟩
    unfold resetSendPing
    simp only [e2]
    simp [send, setConn, setPeer]

/-- The ping timer has expired, and there is no answer yet. -/
example : (run byAddr init (earlyRun.take 7)).map (fun s => (find s 5, (s.peers 0).state, getPeerConn s 5, (s.peers 0).pingArmed)) =
      some (some 0, .connected, some 1, false) ∧
    (run byAddr init (earlyRun.take 7)).map (fun s => ((s.conns 1).peer, (s.conns 1).term,
      (step byAddr s (.pong 1 ⟨0, 0⟩ 0#16)).isSome)) = some (some 0, false, true) := by
  decide +kernel

end Salticidae
