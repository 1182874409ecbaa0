import Verif.Lemmas.PeerKept
import Verif.Props.PeerLife
/-!
C112, C115: the timeout of the connections of a PeerNetwork.
-/
namespace Salticidae
open PeerIdle Spec.PeerIdle

/-! ### C112 -/

/-- 1. A connection is closed by its timeout only when nothing has arrived over it for `timeout`.
2. A connection that is not reported connected is closed within `timeout` (and the delays of two event loop turns) after it was made. -/
def C112_statement : Prop := ∀ (g : Cfg), g.net.listenAddr ≠ 0 →
  (∀ l s t c h, run g init l = some s → step g s (.expire c) = some t → s.heard c = some h → h + g.timeout ≤ s.now) ∧
  (∀ l s l' t c, run g init l = some s → run g s l' = some t → c < s.net.n → (c, true) ∉ t.net.cbs → (t.net.conns c).term = false →
    t.now ≤ s.now + g.timeout + 2 * g.lag)

/-- A node that listens at address 9, with a timeout of a second. -/
def PeerIdle.node : Cfg := ⟨byAddr, 1000, 400, 10⟩

/-- The user opens a connection; over it data arrive all the time. -/
def PeerIdle.busy : List Act := [.net (.connect 7) 300, .net (.established 0 0 0#16) 300, .reset 0, .wait 500, .data 0, .wait 499, .data 0, .wait 1]

/-- A connection that the user opened is closed a second after it was set up, although a millisecond ago data arrived over it. -/
theorem C112_violated : ¬ C112_statement := by
  intro h
  have e : (run node init busy).map (fun s => (s.heard 0, s.now, (step node s (.expire 0)).isSome)) = some (some 999, 1000, true) := by decide +kernel
  cases hr : run node init busy with
  | none => rw [hr] at e; simp at e
  | some s =>
    rw [hr] at e
    simp only [Option.map_some, Option.some.injEq, Prod.mk.injEq] at e
    obtain ⟨t, ht⟩ := Option.isSome_iff_exists.mp e.2.2
    have := (h node (by decide)).1 busy s t 0 999 hr ht e.1
    rw [e.2.1] at this
    exact absurd this (by decide)

/-- A connection that was accepted and is never set up — its TLS handshake is not completed — is not closed. -/
theorem C112_violated_silent : ¬ C112_statement := by
  intro h
  have e1 : (run node init [.net (.accept 7 0) 300]).map (fun s => (s.net.n, s.now)) = some (1, 0) := by decide +kernel
  have e2 : (run node init ([.net (.accept 7 0) 300] ++ [.wait 1000000])).map (fun s => (s.net.cbs, (s.net.conns 0).term, s.now)) =
    some ([], false, 1000000) := by decide +kernel
  rw [run_append] at e2
  cases hr : run node init [.net (.accept 7 0) 300] with
  | none => rw [hr] at e1; simp at e1
  | some s =>
    rw [hr] at e1 e2
    simp only [Option.map_some, Option.some.injEq, Prod.mk.injEq, Option.bind_some] at e1 e2
    cases hr2 : run node s [.wait 1000000] with
    | none => rw [hr2] at e2; simp at e2
    | some t =>
      rw [hr2] at e2
      simp only [Option.map_some, Option.some.injEq, Prod.mk.injEq] at e2
      have := (h node (by decide)).2 _ s _ t 0 hr hr2 (by omega) (by rw [e2.1]; simp) e2.2.1
      rw [e1.2, e2.2.2] at this
      exact absurd this (by decide)

/-- What holds of 2: a connection that has been set up, in `s`, and over which no heartbeat is sent from then on is closed within `timeout` and two turns.
Missing: connections that are not set up. -/
theorem C112_idle_partial (g : Cfg) (l l' : List Act) (s t : St) (c : Nat) (h : run g init l = some s) (h' : run g s l' = some t)
    (hc : c < s.net.n) (hu : (s.net.conns c).setUp = true)
    (hb : (t.net.conns c).out.count (.ping PeerNet.heartbeat) = (s.net.conns c).out.count (.ping PeerNet.heartbeat))
    (ht : (t.net.conns c).term = false) : t.now ≤ s.now + g.timeout + 2 * g.lag := by
  have i := inv_run (inv_init g) h
  have hs := (later_run i h' c hc).term ht
  exact idle_run i hc hu (fun r hr => (i.req c hc hs r hr).1) (fun x hx => by have := (i.due c hc hs x hx).1; omega) h' hb ht

/-- In particular one over which no handshake with a peer has been completed. -/
theorem C112_unreported_partial (g : Cfg) (hg : g.net.listenAddr ≠ 0) (l l' : List Act) (s t : St) (c : Nat) (h : run g init l = some s)
    (h' : run g s l' = some t) (hc : c < s.net.n) (hu : (s.net.conns c).setUp = true) (hn : (c, true) ∉ t.net.cbs)
    (ht : (t.net.conns c).term = false) : t.now ≤ s.now + g.timeout + 2 * g.lag := by
  have i := inv_run (inv_init g) h
  have k := later_run i h' c hc
  have e := (told_later hg (l := l ++ l') (by rw [run_append, h]; exact h')).sent c (by have := k.n; omega) hn
  refine C112_idle_partial g l l' s t c h h' hc hu ?_ ht
  have := k.beats
  unfold PeerNet.pings at e
  unfold PeerIdle.beats at this
  omega

/-- What holds of 1: a connection is closed by its timeout only when the worker has started the timer for it — which it does on behalf of the dispatcher,
after the set-up and with each heartbeat — and never sooner than `timeout` after it did so last.  Missing: what arrives over the connection does not start the
timer anew. -/
theorem C112_not_before_partial (g : Cfg) (l : List Act) (s t : St) (c : Nat) (h : run g init l = some s) (hx : step g s (.expire c) = some t)
    (ht : (s.net.conns c).term = false) :
    Act.reset c ∈ l ∧ ∀ l1 l2 s1, l = l1 ++ Act.reset c :: l2 → run g init l1 = some s1 → s1.now + g.timeout ≤ s.now := by
  constructor
  · apply Classical.byContradiction
    intro hl
    have := due_none (g := g) (c := c) rfl hl h
    simp only [step, this] at hx
    cases hx
  · intro l1 l2 s1 hl h1
    subst hl
    rw [run_append, h1] at h
    simp only [Option.bind_some, run, Option.bind_eq_some_iff] at h
    obtain ⟨u, hu, h⟩ := h
    have i := inv_run (inv_init g) h1
    have i' := inv_step i hu
    have hc : c < s1.net.n := by
      apply Nat.lt_of_not_le
      intro hle
      simp only [step, (i.new c hle).1] at hu
      cases hu
    have hc' : c < u.net.n := by have := (later_step i hu c hc).n; omega
    have hs1 := (later_step i hu c hc).term ((later_run i' h c hc').term ht)
    have hd : u.now = s1.now ∧ u.due c = some (s1.now + g.timeout) := by
      simp only [step] at hu
      split at hu <;> cases hu
      simp [hs1]
    obtain ⟨y, hy, hle⟩ := due_run (x := s1.now + g.timeout) i' hc' ⟨_, hd.2, Nat.le_refl _⟩ (by omega) h
    simp only [step, hy] at hx
    split at hx
    · omega
    · cases hx

/-- A peer that connects and answers the heartbeats is kept beyond the timeout; when it stops answering, the connection is closed. -/
def PeerIdle.beating : List Act := [.net (.addPeer 5) 300, .net (.setAddr 5 5) 300, .net (.connPeer 5 (-1)) 300, .net (.retry 0) 300, .net (.established 1 0 0#16) 300, .reset 1,
  .wait 5, .net (.pong 1 ⟨5, 7⟩ 0#16) 300, .wait 5, .reset 1, .wait 300, .net (.pong 1 ⟨0, 0⟩ 0#16) 300, .net (.pingTimer 0) 400, .wait 2, .reset 1, .wait 400,
  .net (.pong 1 ⟨0, 0⟩ 0#16) 300, .net (.pingTimer 0) 350, .reset 1, .wait 360, .net (.pingTimer 0) 0]

example : (run node init beating).map (fun s => (s.now, (s.net.conns 1).out.count (.ping PeerNet.heartbeat), s.due 1, (s.net.conns 1).term)) =
    some (1072, 3, some 1712, false) := by decide +kernel
example : (run node init (beating ++ [.wait 640, .expire 1])).map (fun s => (s.now, (s.net.conns 1).term)) = some (1712, true) := by decide +kernel
example : (run node init (beating ++ [.expire 1])).isSome = false ∧ (run node init (beating ++ [.wait 651])).isSome = false := by decide +kernel
/-- The timer is neither early nor later than by `lag`; it is not started with more than `ping`. -/
example : (run node init (beating.take 10 ++ [.wait 294, .net (.pingTimer 0) 300])).isSome = false ∧
    (run node init (beating.take 10 ++ [.wait 306])).isSome = false ∧ (run node init [.net (.connect 7) 401]).isSome = false := by decide +kernel

/-- It may fire as soon as it is due; a message counts as something that has arrived. -/
example : (run node init (beating.take 6 ++ [.net (.pong 1 ⟨5, 7⟩ 0#16) 0, .net (.pong 1 ⟨0, 0⟩ 0#16) 300, .net (.pingTimer 0) 300])).map
    (fun s => (s.now, s.tick 0, s.heard 1, s.heard 0)) = some (0, some 300, some 0, none) := by decide +kernel
example : (run node init beating).map (fun s => s.heard 1) = some (some 712) := by decide +kernel

/-- A connection from outside whose peer says nothing. -/
example : (run node init [.net (.accept 7 0) 300, .net (.established 0 0 0#16) 300, .wait 10, .reset 0, .wait 1010]).map
    (fun s => (s.now, s.net.cbs, (s.net.conns 0).setUp, (s.net.conns 0).term)) = some (1020, [], true, false) := by decide +kernel
example : (run node init [.net (.accept 7 0) 300, .net (.established 0 0 0#16) 300, .wait 10, .reset 0, .wait 1011]).isSome = false := by decide +kernel

/-! ### C115 -/

/-- The connection of a peer that answers its heartbeats within `R` — and with which the handshake is completed within `R` of the set-up — is never closed by
its timeout, if `timeout` is longer than `R` and than the longest ping interval, by the delays of the event loops. -/
theorem C115_kept (g : Cfg) (hg : g.net.listenAddr ≠ 0) (R : Nat) (h1 : R + g.lag < g.timeout) (h2 : g.ping + 2 * g.lag < g.timeout)
    (l : List Act) (s : St) (c : Nat) (h : run g init l = some s) (hp : ∀ l1 l2 u, l = l1 ++ l2 → run g init l1 = some u → Prompt R u c)
    (ht : (s.net.conns c).term = false) : step g s (.expire c) = none := by
  have hd : ∃ D, g.ping + g.lag ≤ D ∧ R ≤ D ∧ D + g.lag < g.timeout := by
    by_cases e : R ≤ g.ping + g.lag
    · exact ⟨g.ping + g.lag, by omega, e, by omega⟩
    · exact ⟨R, by omega, by omega, by omega⟩
  obtain ⟨D, d1, d2, d3⟩ := hd
  obtain ⟨i, b, k⟩ := calls_run hg d1 d2 (inv_init g) (beats_init g) (calls_init g D c) h hp
  exact not_due i k (fun r hr => since i b d1 d2 (hp l [] s (by simp) h) hr) d3 ht

/-- What C115_kept asks for, of connection 1 and peer 5, in a form that can be evaluated. -/
def PeerIdle.promptly (R : Nat) (u : St) : Bool := (u.last 1).all (fun r => decide (u.now ≤ r + R) ||
  (PeerNet.find u.net 5 == some 0 && (u.net.peers 0).state == .connected && (u.net.peers 0).conn == 1 &&
    ((u.net.peers 0).pongOk != some false || decide (u.now ≤ u.sent 0 + R))))

/-- The peer of `beating` answers within 500. -/
example : ∀ l1 l2 u, beating = l1 ++ l2 → run node init l1 = some u → Prompt 500 u 1 := by
  intro l1 l2 u hl hu r hr
  have h : (List.range (beating.length + 1)).all (fun k => (run node init (beating.take k)).all (promptly 500)) = true := by decide +kernel
  rw [List.all_eq_true] at h
  have h1 := h l1.length (by rw [List.mem_range, hl, List.length_append]; omega)
  rw [hl, List.take_left, hu] at h1
  simp only [Option.all_some, promptly, hr, Bool.or_eq_true, Bool.and_eq_true, decide_eq_true_eq, beq_iff_eq, bne_iff_ne] at h1
  rcases h1 with h1 | ⟨⟨⟨h1, h2⟩, h3⟩, h4⟩
  · exact .inl h1
  · exact .inr ⟨5, 0, h1, h2, h3, fun e => h4.resolve_left (fun n => n e)⟩

end Salticidae
