import Verif.Lemmas.PeerSafe
import Verif.Props.PeerNet
/-!
C56, C57, C77: connection attempts, the state of peers, undefined behaviour.
-/
namespace Salticidae
open PeerNet Spec.PeerNet

/-! ### C57 -/

def C57_statement : Prop := ∀ (g : Cfg) (l : List Act) (s : St), run g init l = some s → Follows g s

/-- Peers are added under the identity given by their address. -/
def byAddr : Cfg := ⟨false, id, id, 9⟩

/-- The peer 5 answers on a connection that the user opened with connect(addr), which is then torn down. -/
def manualRun : List Act := [.addPeer 5, .setAddr 5 5, .connPeer 5 0, .connect 5, .established 1 0 0#16, .pong 1 ⟨5, 7⟩ 0#16,
  .lost 1, .teardown 1]

/-- It stays reported connected, for ever. -/
theorem C57_violated : ¬ C57_statement := by
  intro h
  have e : (run byAddr init manualRun).map (fun s => (find s 5, getPeerConn s 5, (s.conns 1).torn, lastReport s 1)) =
      some (some 0, some 1, true, some true) := by decide +kernel
  cases hr : run byAddr init manualRun with
  | none => rw [hr] at e; simp at e
  | some s =>
    rw [hr] at e
    simp only [Option.map_some, Option.some.injEq, Prod.mk.injEq] at e
    exact ((h _ _ s hr).2 5 0 e.1 1 e.2.1).1 e.2.2.1 e.2.2.2

/-- What is sent first: to a known peer the number drawn for it (the draw plus 1), on a connection to an unknown address that the user opened the number 0. -/
example : (run byAddr init [.addPeer 5, .setAddr 5 5, .connPeer 5 3, .retry 0, .established 1 0 7#16, .connect 6, .established 2 0 8#16]).map (fun s => ((s.conns 1).out, (s.conns 2).out)) =
    some ([.ping ⟨9, 8⟩], [.ping ⟨9, 0⟩]) := by decide +kernel

/-- The remote end of one connection claims to be 5 and then to be 6, and closes it. -/
def twoRun : List Act := [.addPeer 5, .addPeer 6, .accept 7 0, .established 2 0 0#16, .ping 2 ⟨5, 1⟩ 0#16, .ping 2 ⟨6, 1⟩ 0#16,
  .lost 2, .teardown 2, .accept 8 0, .established 3 0 0#16]

/-- Peer 5 cannot be connected again. -/
theorem C57_violated_two_identities : ¬ C57_statement := by
  intro h
  have e : (run byAddr init twoRun).map (fun s => (find s 5, getPeerConn s 5, (s.conns 2).torn, s.n, (s.conns 3).setUp)) =
      some (some 0, some 2, true, 4, true) := by decide +kernel
  have e' : (run byAddr init twoRun).map (fun s => ((s.conns 3).term, (s.conns 3).active, (s.peers 0).addr,
      pidOf byAddr (s.conns 3) 5, (step byAddr s (.ping 3 ⟨5, 1⟩ 0#16)).map (fun t => getPeerConn t 5))) =
      some (false, false, 0, 5, some (some 2)) := by decide +kernel
  cases hr : run byAddr init twoRun with
  | none => rw [hr] at e; simp at e
  | some s =>
    rw [hr] at e e'
    simp only [Option.map_some, Option.some.injEq, Prod.mk.injEq] at e e'
    obtain ⟨e1, e2, e3, e4, e5⟩ := e
    obtain ⟨e6, e7, e8, e9, e10⟩ := e'
    obtain ⟨t, h1, h2, _⟩ := ((h _ _ s hr).2 5 0 e1 2 e2).2.2 e3 3 ⟨5, 1⟩ 0#16 (by rw [e4]; decide) e5 e6 e7 (by decide) (by decide) e9 (.inr e8)
    rw [h1] at e10
    simp [h2] at e10

/-- The retry timer starts a second dial while the first one is still open, and the second one succeeds. -/
def staleRun : List Act := [.addPeer 5, .setAddr 5 5, .connPeer 5 (-1), .retry 0, .retry 0, .established 2 0 0#16,
  .pong 2 ⟨5, 7⟩ 0#16, .lost 1]

/-- The teardown of the first connection disconnects the peer. -/
theorem C57_violated_stale_dial : ¬ C57_statement := by
  intro h
  have e : (run byAddr init staleRun).map (fun s => (find s 5, getPeerConn s 5, lastReport s 2, (s.peers 0).state,
      (step byAddr s (.teardown 1)).map (fun t => (t.peers 0).state))) =
      some (some 0, some 2, some true, .connected, some .disconnected) := by decide +kernel
  cases hr : run byAddr init staleRun with
  | none => rw [hr] at e; simp at e
  | some s =>
    rw [hr] at e
    simp only [Option.map_some, Option.some.injEq, Prod.mk.injEq] at e
    obtain ⟨e1, e2, e3, e4, e5⟩ := e
    cases hs : step byAddr s (.teardown 1) with
    | none => rw [hs] at e5; simp at e5
    | some t =>
      rw [hs] at e5
      simp only [Option.map_some, Option.some.injEq] at e5
      have := (((h _ _ s hr).2 5 0 e1 2 e2).2.1 e3 1 t (by decide) hs).1
      rw [this, e4] at e5; cases e5

theorem ord_run (who : Nat → Nat) (g : Cfg) (l : List Act) (s : St) (h : run g init l = some s) :
    (∀ x ∈ trace g init l, Orderly who g x.1 x.2) → Ord who s := by
  revert l s
  refine run_ind (fun _ => ord_init who) ?_
  intro l s a t hr b ih ht ho
  rw [trace_snoc hr] at ho
  exact ord_step b (cbs_lt g l s hr) (ih (fun x hx => ho x (List.mem_append_left _ hx)))
    (ho (s, a) (List.mem_append_right _ (by simp))) ht

/-- In orderly histories the peers' states follow their connections. -/
theorem C57_follows_partial (who : Nat → Nat) (g : Cfg) (l : List Act) (s : St) (h : run g init l = some s)
    (ho : ∀ x ∈ trace g init l, Orderly who g x.1 x.2) : Follows g s := by
  have b := basic_run basic_init h
  have o := ord_run who g l s h ho
  refine ⟨fun a t c ht hc => ?_, fun pid p hf k hk => ?_⟩
  · obtain ⟨pid, h1, _, h3⟩ := (C63_only_known g l s t a h ht).1 c hc
    exact ⟨pid, h1, h3⟩
  have hb := b.find_iff.mp hf
  have hk' : (s.peers p).conn = k := by simpa [getPeerConn, hf] using hk
  have hdown : (s.conns k).torn = true → (s.peers p).state = .disconnected := by
    intro ht
    by_cases hst : (s.peers p).state = .disconnected
    · exact hst
    · have := (o.up p hb.1 hb.2.2 hst).1
      rw [hk', ht] at this; cases this
  refine ⟨fun ht => ?_, fun hrep c t hck ht => ?_, fun ht c x draw h1 h2 h3 h4 h5 h6 h7 h8 => ?_⟩
  · have := (o.down p hb.1 hb.2.2 (hdown ht)).2
    rw [hk'] at this; exact this
  · have hst : (s.peers p).state ≠ .disconnected := by
      intro hst
      have := (o.down p hb.1 hb.2.2 hst).2
      rw [hk'] at this; exact this hrep
    obtain ⟨u1, u2, u3, u4, u5⟩ := o.up p hb.1 hb.2.2 hst
    have hfind : find t pid = some p := by
      rw [find_of_known (known_step ht (by simp) (by simp))]; exact hf
    simp only [step] at ht
    split at ht
    rotate_left
    · cases ht
    rename_i hc
    injection ht with ht
    have e := (tear_eff s c).2
    rw [ht] at e
    have hne : ∀ q, (s.conns c).peer = some q → p ≠ q := by
      intro q hq e
      subst e
      exact hck (by rw [u4 c hc.2.2 hq, hk'])
    have hp : t.peers p = s.peers p := by
      cases e with
      | nobody _ hp => rw [hp]
      | ub _ _ _ _ hp => rw [hp]
      | preempt q x hq _ _ _ hp => rw [hp, upd_apply, if_neg (hne q hq)]
      | backoff q hq _ _ _ hp => rw [hp, upd_apply, if_neg (hne q hq)]
    have hr : lastReport t k = some true := by
      cases e with
      | nobody _ _ _ hcbs => rw [lastReport_same s t _ hcbs]; exact hrep
      | ub _ _ _ _ _ _ hcbs => rw [lastReport_same s t _ hcbs]; exact hrep
      | preempt q x hq _ _ _ _ _ hcbs => rw [lastReport_append s t k c false hcbs, if_neg (fun e => hck e.symm)]; exact hrep
      | backoff q hq _ _ _ _ _ hcbs => rw [lastReport_append s t k c false hcbs, if_neg (fun e => hck e.symm)]; exact hrep
    exact ⟨hp, by simp [getPeerConn, hfind, hp, hk'], hr⟩
  · have hst := hdown ht
    have hs : step g s (.ping c x draw) = some (pingClosure g s c x draw) := by
      simp only [step]; rw [if_pos ⟨h1, h2⟩]
    refine ⟨_, hs, ?_⟩
    have hfind : find (pingClosure g s c x draw) pid = some p := by
      rw [find_of_known (known_step hs (by simp) (by simp))]; exact hf
    have hfc : find s (pidOf g (s.conns c) x.claimed) = some p := by rw [h7]; exact hf
    have key : ∃ y, Fin s (pingClosure g s c x draw) p c y := by
      cases ping_eff g s c x draw with
      | accept q hh hst' hn e =>
        have := hh.found
        rw [hfc] at this
        injection this with this
        subst this; exact ⟨_, e⟩
      | reject q hh hst' hn e ea =>
        have := hh.found
        rw [hfc] at this
        injection this with this
        subst this; exact absurd h8 hn
      | preempt q hh hst' e =>
        have := hh.found
        rw [hfc] at this
        injection this with this
        subst this; rw [hst] at hst'; cases hst'
      | unknown _ _ _ hn _ => rw [hfc] at hn; cases hn
      | nop e hr =>
        exfalso
        rcases hr with hr | hr | hr | hr | ⟨q, hr, hr'⟩
        · rw [h3] at hr; cases hr
        · exact h5 hr
        · rw [h4] at hr; cases hr
        · exact h6 hr
        · rw [hfc] at hr; injection hr with hr; subst hr; rw [hst] at hr'; cases hr'
    obtain ⟨y, e⟩ := key
    refine ⟨?_, ?_⟩
    · simp [getPeerConn, hfind, e.peers, finished]
    · rw [lastReport_append s _ c c true e.cbs, if_pos rfl]

/-! A check of the conditions on a given history. -/

def orderlyB (who : Nat → Nat) (g : Cfg) (s : St) (a : Act) : Bool :=
  (match a with | .retry p => who s.n == (s.peers p).id | _ => true) &&
  (match a with
    | .delPeer pid => (match find s pid with
      | none => true
      | some p => (List.range s.n).all (fun d => (s.conns d).torn || (s.conns d).peer != some p || d == (s.peers p).conn ||
          (s.peers p).outbound == some d))
    | _ => true) &&
  (match identity g s a with
    | none => true
    | some (pid, c) => pid == who c && (!(s.conns c).active || !(s.conns c).manual) && (match find s pid with
      | none => true
      | some p => (s.peers p).state != .disconnected || (List.range s.n).all (fun d => (s.conns d).torn || (s.conns d).peer != some p ||
          d == c || (!(s.conns c).active && (s.peers p).outbound == some d))))

theorem orderly_of_check {who : Nat → Nat} {g : Cfg} {s : St} {a : Act} (b : Basic s) (h : orderlyB who g s a = true) :
    Orderly who g s a := by
  unfold orderlyB at h
  simp only [Bool.and_eq_true] at h
  obtain ⟨⟨h1, h2⟩, h3⟩ := h
  refine ⟨fun p e => by subst e; simpa using h1, fun pid p e hf d hd hp => ?_, fun pid c hi => ?_⟩
  · subst e
    simp only [hf, List.all_eq_true, List.mem_range] at h2
    have := h2 d (b.link d p hp).1
    simp [hd, hp] at this
    exact this
  · rw [hi] at h3
    simp only [Bool.and_eq_true, beq_iff_eq, Bool.or_eq_true, Bool.not_eq_true'] at h3
    obtain ⟨⟨h4, h5⟩, h6⟩ := h3
    refine ⟨h4, fun ha => by rw [ha] at h5; simpa using h5, fun p hf hst d hd hp => ?_⟩
    rw [hf] at h6
    simp only [hst, Bool.or_eq_true, List.all_eq_true, List.mem_range] at h6
    rcases h6 with h6 | h6
    · simp at h6
    · have := h6 d (b.link d p hp).1
      simp [hd, hp] at this
      exact this

theorem trace_basic {g : Cfg} {s : St} (b : Basic s) (l : List Act) : ∀ x ∈ trace g s l, Basic x.1 := by
  induction l generalizing s with
  | nil => simp [trace]
  | cons a l ih =>
    intro x hx
    simp only [trace, List.mem_cons] at hx
    rcases hx with hx | hx
    · rw [hx]; exact b
    · cases h : step g s a with
      | none => rw [h] at hx; simp at hx
      | some t => rw [h] at hx; exact ih (b.step h) x hx

theorem orderly_check {who : Nat → Nat} {g : Cfg} {l : List Act}
    (h : (trace g init l).all (fun x => orderlyB who g x.1 x.2) = true) : ∀ x ∈ trace g init l, Orderly who g x.1 x.2 := by
  intro x hx
  rw [List.all_eq_true] at h
  exact orderly_of_check (trace_basic basic_init l x hx) (h x hx)

/-- A dial that fails, one that succeeds and is lost, then a connection from the peer, and a heartbeat. -/
def orderlyRun : List Act := [.addPeer 5, .setAddr 5 5, .connPeer 5 (-1), .retry 0, .lost 1, .teardown 1, .retry 0,
  .established 2 0 0#16, .pong 2 ⟨5, 7⟩ 0#16, .pong 2 ⟨0, 0⟩ 0#16, .pingTimer 0, .lost 2, .teardown 2, .accept 7 0,
  .established 3 0 0#16, .ping 3 ⟨5, 3⟩ 9#16]

example : (∀ x ∈ trace byAddr init orderlyRun, Orderly (fun _ => 5) byAddr x.1 x.2) ∧
    (run byAddr init orderlyRun).map (fun s => (s.cbs, getPeerConn s 5, (s.peers 0).dials)) =
      some ([(1, false), (2, true), (2, false), (3, true)], some 3, 2) :=
  ⟨orderly_check (by decide +kernel), by decide +kernel⟩

/-! ### C77 -/

/-- No history leads to undefined behaviour. -/
def C77_statement : Prop := ∀ (g : Cfg) (l : List Act) (s : St), run g init l = some s → s.ub = false

theorem not_C77 {l : List Act} (h : (run byAddr init l).map (·.ub) = some true) : ¬ C77_statement := by
  intro k
  cases hr : run byAddr init l with
  | none => rw [hr] at h; simp at h
  | some s =>
    rw [hr] at h
    simp only [Option.map_some, Option.some.injEq] at h
    rw [k _ _ s hr] at h; cases h

/-- The remote end of a dialled connection sends a heartbeat answer before the handshake: the node reads a flag that was never
initialised. -/
theorem C77_violated : ¬ C77_statement :=
  not_C77 (l := [.addPeer 5, .setAddr 5 5, .connPeer 5 1, .retry 0, .established 1 0 0#16, .pong 1 ⟨0, 0⟩ 0#16]) (by decide +kernel)

/-- The user calls conn_peer while a connection is being replaced: the handshake that was put off is executed with a
null connection. -/
theorem C77_violated_conn_peer : ¬ C77_statement :=
  not_C77 (l := [.addPeer 5, .setAddr 5 5, .connPeer 5 1, .retry 0, .established 1 0 0#16, .pong 1 ⟨5, 7⟩ 0#16, .accept 7 0,
    .established 2 0 0#16, .ping 2 ⟨5, 1⟩ 0#16, .connPeer 5 1, .lost 1, .teardown 1, .deferred 0#16]) (by decide +kernel)

/-- A peer is deleted while two dials to it are open: the teardown of the first one uses the deleted peer. -/
theorem C77_violated_del_peer : ¬ C77_statement :=
  not_C77 (l := [.addPeer 5, .setAddr 5 5, .connPeer 5 (-1), .retry 0, .retry 0, .delPeer 5, .lost 1, .teardown 1]) (by decide +kernel)

theorem safe_run (who : Nat → Nat) (g : Cfg) (l : List Act) (s : St) (h : run g init l = some s) :
    (∀ x ∈ trace g init l, Orderly who g x.1 x.2 ∧ Polite x.1 x.2) → Safe s := by
  revert l s
  refine run_ind (fun _ => safe_init) ?_
  intro l s a t hr b ih ht ho
  rw [trace_snoc hr] at ho
  have h1 := fun x hx => ho x (List.mem_append_left _ hx)
  exact safe_step b (cbs_lt g l s hr) (ord_run who g l s hr (fun x hx => (h1 x hx).1)) (ih h1)
    (ho (s, a) (List.mem_append_right _ (by simp))).2 ht

/-- Orderly and polite histories do not lead to undefined behaviour. -/
theorem C77_safe_partial (who : Nat → Nat) (g : Cfg) (l : List Act) (s : St) (h : run g init l = some s)
    (ho : ∀ x ∈ trace g init l, Orderly who g x.1 x.2 ∧ Polite x.1 x.2) : s.ub = false :=
  (safe_run who g l s h ho).ub

def politeB (s : St) (a : Act) : Bool :=
  match a with
  | .pong c h _ => h.claimed != 0 || s.cbs.contains (c, true)
  | .connPeer pid _ => match find s pid with
    | none => true
    | some p => (s.peers p).preempt == none
  | _ => true

theorem polite_of_check {s : St} {a : Act} (h : politeB s a = true) : Polite s a := by
  refine ⟨fun c x d e hz => ?_, fun pid n p e hf => ?_⟩
  · subst e; simpa [politeB, hz] using h
  · subst e; simpa [politeB, hf] using h

example : ∀ x ∈ trace byAddr init orderlyRun, Orderly (fun _ => 5) byAddr x.1 x.2 ∧ Polite x.1 x.2 := by
  have h : (trace byAddr init orderlyRun).all (fun x => politeB x.1 x.2) = true := by decide +kernel
  rw [List.all_eq_true] at h
  exact fun x hx => ⟨orderly_check (by decide +kernel) x hx, polite_of_check (h x hx)⟩

/-! ### C56 -/

/-- conn_peer(pid, n) with n > 0: at most n dials as long as none of them succeeds. -/
def C56_bounded_statement : Prop := ∀ (g : Cfg) (l : List Act) (s : St) (pid p : Nat) (n : Int),
  run g init l = some s → find s pid = some p → (s.peers p).addr ≠ 0 → 0 < n →
  ∀ l2 t, run g s (.connPeer pid n :: l2) = some t → (∀ m, .connPeer pid m ∉ l2) → successes t = successes s →
    (l2.count (.retry p) : Int) ≤ n

/-- A disconnected peer that is being dialled. -/
structure Dialling (s : St) (p : Nat) : Prop where
  m : p < s.m
  freed : (s.peers p).freed = false
  armed : (s.peers p).retryArmed = true
  pre : (s.peers p).preempt = none

/-- One dial that fails leaves the peer being dialled, whatever the count of attempts is. -/
theorem dial_round (g : Cfg) (s : St) (p : Nat) (h : Dialling s p) : ∃ t,
    run g s [.retry p, .lost s.n, .teardown s.n] = some t ∧ Dialling t p ∧ successes t = successes s := by
  have k := retry_eff s p
  have h1 : step g s (.retry p) = some (retryTimer s p) := by simp only [step]; rw [if_pos ⟨h.m, h.freed, h.armed⟩]
  generalize retryTimer s p = s1 at *
  have t1 : (s1.conns s.n).term = false := k.newc.term
  have o1 : (s1.conns s.n).torn = false := k.newc.torn
  have a1 : (s1.conns s.n).active = true := k.newc.active
  have m1 : (s1.conns s.n).manual = false := k.newc.manual
  have l1 : (s1.conns s.n).peer = some p := by rw [k.link, if_pos rfl]
  have p1 : s1.peers p = { s.peers p with outbound := some s.n, retryArmed := true, dials := (s.peers p).dials + 1 } := by
    rw [k.peers, upd_self]
  have h2 : step g s1 (.lost s.n) = some (setConn s1 s.n { s1.conns s.n with term := true }) := by
    simp only [step]; rw [if_pos ⟨by rw [k.n]; omega, t1⟩]
  generalize hs2 : setConn s1 s.n { s1.conns s.n with term := true } = s2 at *
  have c2 : s2.conns s.n = { s1.conns s.n with term := true } := by rw [← hs2]; simp [setConn]
  have p2 : s2.peers = s1.peers := by rw [← hs2]; rfl
  have n2 : s2.n = s1.n := by rw [← hs2]; rfl
  have mm : s2.m = s1.m := by rw [← hs2]; rfl
  have b2 : s2.cbs = s1.cbs := by rw [← hs2]; rfl
  have h3 : step g s2 (.teardown s.n) = some (teardown s2 s.n) := by
    simp only [step]; rw [if_pos ⟨by rw [n2, k.n]; omega, by rw [c2], by rw [c2]; exact o1⟩]
  have e := tear_eff s2 s.n
  generalize teardown s2 s.n = t at *
  refine ⟨t, by simp [run, h1, h2, h3], ?_⟩
  obtain ⟨e1, e2⟩ := e
  cases e2 with
  | nobody hp =>
    rcases hp with hp | hp
    · rw [c2] at hp; simp only at hp; rw [l1] at hp; cases hp
    · rw [c2] at hp; simp only at hp; rw [m1] at hp; simp at hp
  | ub q hp _ hf =>
    rw [c2] at hp; simp only at hp; rw [l1] at hp; injection hp with hp; subst hp
    rw [p2, p1] at hf; simp only at hf; rw [h.freed] at hf; cases hf
  | preempt q x hp _ _ hx =>
    rw [c2] at hp; simp only at hp; rw [l1] at hp; injection hp with hp; subst hp
    rw [p2, p1] at hx; simp only at hx; rw [h.pre] at hx; cases hx
  | backoff q hp _ hf hx hpeers _ hcbs =>
    rw [c2] at hp; simp only at hp; rw [l1] at hp; injection hp with hp; subst hp
    have tp : t.peers p = backoff (disc (s2.peers p)) := by rw [hpeers, upd_self]
    refine ⟨⟨by rw [e1.m, mm, k.m]; exact h.m, ?_, ?_, ?_⟩, ?_⟩
    · rw [tp]; simp [p2, p1, h.freed]
    · rw [tp, backoff_eq]; simp [p2, p1]
    · rw [tp]; simp [p2, p1, h.pre]
    · unfold successes
      rw [hcbs, b2, k.cbs, List.filter_append]
      simp

theorem dial_rounds (g : Cfg) (p : Nat) (k : Nat) : ∀ s : St, Dialling s p → ∃ l t,
    run g s l = some t ∧ Dialling t p ∧ successes t = successes s ∧ (∀ pid m, .connPeer pid m ∉ l) ∧ l.count (.retry p) = k := by
  induction k with
  | zero => intro s h; exact ⟨[], s, rfl, h, rfl, by simp, by simp⟩
  | succ k ih =>
    intro s h
    obtain ⟨u, h1, h2, h3⟩ := dial_round g s p h
    obtain ⟨l, t, h4, h5, h6, h7, h8⟩ := ih u h2
    refine ⟨_ ++ l, t, run_append.mpr ⟨u, h1, h4⟩, h5, by rw [h6, h3], ?_, ?_⟩
    · intro pid m; simp [h7]
    · rw [List.count_append, h8]
      simp [List.count_cons]
      omega

/-- The limit does not limit: whenever conn_peer is called with any n other than 0 for a disconnected peer, any
number of dials can follow, all of them failing. -/
theorem C56_violated_any_number (g : Cfg) (l : List Act) (s : St) (pid p : Nat) (n : Int) (hr : run g init l = some s)
    (hf : find s pid = some p) (ha : (s.peers p).addr ≠ 0) (hn : n ≠ 0) (hst : (s.peers p).state = .disconnected)
    (hpre : (s.peers p).preempt = none) (k : Nat) :
    ∃ l2 t, run g s (.connPeer pid n :: l2) = some t ∧ (∀ m, .connPeer pid m ∉ l2) ∧ successes t = successes s ∧
      l2.count (.retry p) = k := by
  have b := (basic_run basic_init hr).find_iff.mp hf
  have hs : step g s (.connPeer pid n) = some (connPeer s pid n) := rfl
  have : Dialling (connPeer s pid n) p ∧ successes (connPeer s pid n) = successes s := by
    cases dial_eff s pid n with
    | err e h ht =>
      exfalso
      rcases h with ⟨h, _⟩ | ⟨q, h, h', _⟩
      · rw [hf] at h; cases h
      · rw [hf] at h; injection h with h; subst h; exact ha h'
    | ok q hq _ e =>
      rw [hf] at hq; injection hq with hq; subst hq
      have ep : (connPeer s pid n).peers p = redial (s.peers p) n := by rw [e.peers, upd_self]
      refine ⟨⟨by rw [e.m]; exact b.1, ?_, ?_, ?_⟩, by unfold successes; rw [e.cbs]⟩
      · rw [ep]; exact b.2.2
      · rw [ep]; simp [redial, hst, hn]
      · rw [ep]; exact hpre
  obtain ⟨l2, t, h1, _, h3, h4, h5⟩ := dial_rounds g p k _ this.1
  exact ⟨l2, t, by simp [run, hs, h1], h4 pid, by rw [h3, this.2], h5⟩

/-- conn_peer with 3 tries: 4 dials, none of which succeeds. -/
theorem C56_violated : ¬ C56_bounded_statement := by
  intro h
  have e : (run byAddr init [.addPeer 5, .setAddr 5 5]).map (fun s => (find s 5, (s.peers 0).addr, (s.peers 0).state,
      (s.peers 0).preempt)) = some (some 0, 5, .disconnected, none) := by decide +kernel
  cases hr : run byAddr init [.addPeer 5, .setAddr 5 5] with
  | none => rw [hr] at e; simp at e
  | some s =>
    rw [hr] at e
    simp only [Option.map_some, Option.some.injEq, Prod.mk.injEq] at e
    obtain ⟨e1, e2, e3, e4⟩ := e
    have ha : (s.peers 0).addr ≠ 0 := by rw [e2]; decide
    obtain ⟨l2, t, h1, h2, h3, h4⟩ := C56_violated_any_number byAddr _ s 5 0 3 hr e1 ha (by decide) e3 e4 4
    have := h _ _ s 5 0 3 hr e1 ha (by decide) l2 t h1 h2 h3
    rw [h4] at this
    exact absurd this (by decide)

/-- No dial is under way and none will be started. -/
structure Stopped (pid p : Nat) (s : St) : Prop where
  m : p < s.m
  id : (s.peers p).id = pid
  ntry : (s.peers p).ntry = 0
  cur : (s.peers p).curNtry = 0
  armed : (s.peers p).retryArmed = false

theorem stopped_step {g : Cfg} {pid p : Nat} {s : St} {a : Act} {t : St} (b : Basic s) (k : Stopped pid p s)
    (ha : ∀ m, a ≠ .connPeer pid m) (h : step g s a = some t) : a ≠ .retry p ∧ Stopped pid p t := by
  have hne : a ≠ .retry p := by
    intro e; subst e
    simp only [step] at h
    split at h
    · rename_i hc; rw [k.armed] at hc; simp at hc
    · cases h
  have hm := m_step h
  refine ⟨hne, ?_⟩
  have e := pstep b h p
  have hm' : p < t.m := by have := k.m; omega
  have key : ∀ y, t.peers p = y → y.id = (s.peers p).id → y.ntry = 0 → y.curNtry = 0 → y.retryArmed = false → Stopped pid p t := by
    intro y hy h1 h2 h3 h4
    subst hy
    exact ⟨hm', by rw [h1, k.id], h2, h3, h4⟩
  generalize hy : t.peers p = y at e
  refine key y hy ?_ ?_ ?_ ?_ <;> cases e with
  | redial pid' n ha' hf hv => 
    have := (b.find_iff.mp hf).2.1
    rw [k.id] at this; subst this; exact absurd ha' (ha n)
  | new pid' _ hq => have := k.m; omega
  | retry ha' => exact absurd ha' hne
  | _ => simp [finished, backoff_eq, left, k.ntry, k.cur, k.armed]

theorem stopped_run {g : Cfg} {pid p : Nat} : ∀ (l : List Act) (s t : St), Basic s → Stopped pid p s → (∀ m, .connPeer pid m ∉ l) →
    run g s l = some t → .retry p ∉ l := by
  intro l
  induction l with
  | nil => intro s t _ _ _ _; simp
  | cons a l ih =>
    intro s t b k ho hr
    simp only [run, Option.bind_eq_some_iff] at hr
    obtain ⟨u, h1, h2⟩ := hr
    have h3 := stopped_step b k (fun m e => ho m (by rw [e]; exact List.mem_cons_self)) h1
    have h4 := ih u t (b.step h1) h3.2 (fun m hm => ho m (List.mem_cons_of_mem _ hm)) h2
    simp only [List.mem_cons, not_or]
    exact ⟨fun e => h3.1 e.symm, h4⟩

/-- After conn_peer(pid, 0) the peer is not dialled any more until the next conn_peer(pid, _). -/
theorem C56_stop (g : Cfg) (l : List Act) (s : St) (pid p : Nat) (hr : run g init l = some s)
    (hf : find s pid = some p) (ha : (s.peers p).addr ≠ 0)
    (l2 : List Act) (t : St) (ht : run g s (.connPeer pid 0 :: l2) = some t) (hl : ∀ m, .connPeer pid m ∉ l2) :
    .retry p ∉ l2 := by
  have b := basic_run basic_init hr
  have hb := b.find_iff.mp hf
  simp only [run, Option.bind_eq_some_iff] at ht
  obtain ⟨u, h1, h2⟩ := ht
  refine stopped_run l2 u t (b.step h1) ?_ hl h2
  simp only [step, Option.some.injEq] at h1
  subst h1
  cases dial_eff s pid 0 with
  | err e h ht =>
    exfalso
    rcases h with ⟨h, _⟩ | ⟨q, h, h', _⟩
    · rw [hf] at h; cases h
    · rw [hf] at h; injection h with h; subst h; exact ha h'
  | ok q hq _ e =>
    rw [hf] at hq; injection hq with hq; subst hq
    have ep : (connPeer s pid 0).peers p = redial (s.peers p) 0 := by rw [e.peers, upd_self]
    refine ⟨by rw [e.m]; exact hb.1, ?_, ?_, ?_, ?_⟩ <;> rw [ep]
    · exact hb.2.1
    · rfl
    · rfl
    · simp [redial]

/-- Dialled, then stopped while the dial is open; the dial succeeds and is lost. -/
example : (run byAddr init [.addPeer 5, .setAddr 5 5, .connPeer 5 (-1), .retry 0, .established 1 0 0#16]).all (fun s =>
    find s 5 == some 0 && (s.peers 0).addr != 0 && (s.peers 0).retryArmed &&
    (run byAddr s [.connPeer 5 0, .pong 1 ⟨5, 9⟩ 0#16, .lost 1, .teardown 1]).any (fun t =>
      t.cbs == [(1, true), (1, false)] && (step byAddr t (.retry 0)).isNone)) = true := by decide +kernel

/-- conn_peer(pid, n) with n < 0: whenever the member's connection is torn down and no handshake is waiting to be
processed, a dial comes next. -/
def C56_retry_statement : Prop := ∀ (who : Nat → Nat) (g : Cfg) (l : List Act) (s : St) (pid p : Nat) (n : Int),
  run g init l = some s → find s pid = some p → (s.peers p).addr ≠ 0 → n < 0 →
  ∀ l2 t, run g s (.connPeer pid n :: l2) = some t → (∀ m, .connPeer pid m ∉ l2) → .delPeer pid ∉ l2 →
    (∀ x ∈ trace g init (l ++ .connPeer pid n :: l2), Orderly who g x.1 x.2) → t.posted = [] →
    ∀ k, getPeerConn t pid = some k → (t.conns k).torn = true → ∃ u, step g t (.retry p) = some u

/-- Connected; a new connection from the peer asks to replace the old one, which is closed; then the new one is lost before its
handshake, which was put off, is processed. -/
def takeoverRun : List Act := [.retry 0, .established 1 0 0#16, .pong 1 ⟨5, 7⟩ 0#16, .accept 7 0, .established 2 0 0#16,
  .ping 2 ⟨5, 1⟩ 0#16, .lost 1, .teardown 1, .lost 2, .deferred 0#16, .teardown 2]

/-- The peer is disconnected and will never be dialled. -/
theorem C56_violated_retry : ¬ C56_retry_statement := by
  intro h
  have e : (run byAddr init [.addPeer 5, .setAddr 5 5]).map (fun s => (find s 5, (s.peers 0).addr)) = some (some 0, 5) := by
    decide +kernel
  have e' : ((run byAddr init [.addPeer 5, .setAddr 5 5]).bind (fun s => run byAddr s (.connPeer 5 (-1) :: takeoverRun))).map
      (fun t => (t.posted, getPeerConn t 5, (t.conns 1).torn, (step byAddr t (.retry 0)).isSome)) =
      some ([], some 1, true, false) := by decide +kernel
  cases hr : run byAddr init [.addPeer 5, .setAddr 5 5] with
  | none => rw [hr] at e; simp at e
  | some s =>
    rw [hr] at e e'
    simp only [Option.map_some, Option.some.injEq, Prod.mk.injEq] at e
    obtain ⟨e1, e2⟩ := e
    simp only [Option.bind_some] at e'
    cases ht : run byAddr s (.connPeer 5 (-1) :: takeoverRun) with
    | none => rw [ht] at e'; simp at e'
    | some t =>
      rw [ht] at e'
      simp only [Option.map_some, Option.some.injEq, Prod.mk.injEq] at e'
      obtain ⟨u, hu⟩ := h (fun _ => 5) byAddr _ s 5 0 (-1) hr e1 (by rw [e2]; decide) (by decide) takeoverRun t ht
        (by simp [takeoverRun]) (by simp [takeoverRun]) (orderly_check (by decide +kernel)) e'.1 1 e'.2.1 e'.2.2.1
      rw [hu] at e'
      simp at e'

/-- No peer waits for its connection to be replaced. -/
theorem pre_run (g : Cfg) (l : List Act) (s : St) (h : run g init l = some s) :
    (∀ x ∈ trace g init l, NoTakeover g x.1 x.2) → ∀ p, (s.peers p).preempt = none := by
  revert l s
  refine run_ind (fun _ p => rfl) ?_
  intro l s a t hr b ih ht ho p
  rw [trace_snoc hr] at ho
  have hpre := ih (fun x hx => ho x (List.mem_append_left _ hx)) p
  have hno : NoTakeover g s a := ho (s, a) (List.mem_append_right _ (by simp))
  have e := pstep b ht p
  generalize t.peers p = y at e ⊢
  cases e with
  | preempt c x hi hp hst hf =>
    exfalso
    have ha : (s.conns c).active = false := by
      cases a with
      | ping c' x d => simp only [identity] at hi; split at hi <;> simp at hi; rename_i h; rw [← hi.2]; exact h.2
      | pong c x d => exact absurd rfl (hp c x d)
      | deferred d =>
        simp only [identity] at hi
        split at hi
        · split at hi <;> simp at hi
          rename_i h; rw [← hi.2]; exact h.2
        · cases hi
      | _ => simp [identity] at hi
    exact hno _ c p hi ha hf hst
  | _ => simp [finished, redial, newPeer, backoff_eq, hpre]

/-- The peer is dialled as long as it is not connected. -/
structure Keeps (pid p : Nat) (s : St) : Prop where
  m : p < s.m
  id : (s.peers p).id = pid
  freed : (s.peers p).freed = false
  ntry : (s.peers p).ntry < 0
  cur : (s.peers p).curNtry < 0
  armed : (s.peers p).state = .disconnected → (s.peers p).retryArmed = true

theorem keeps_step {g : Cfg} {pid p : Nat} {s : St} {a : Act} {t : St} (b : Basic s) (hpre : ∀ p, (s.peers p).preempt = none)
    (k : Keeps pid p s) (ha : ∀ m, a ≠ .connPeer pid m) (hd : a ≠ .delPeer pid) (h : step g s a = some t) : Keeps pid p t := by
  have hm := m_step h
  have hm' : p < t.m := by have := k.m; omega
  have hfr : (t.peers p).freed = (s.peers p).freed := by
    cases a with
    | delPeer q =>
      simp only [step, Option.some.injEq] at h; subst h
      cases hf : find s q with
      | none => simp only [delPeer, hf]
      | some r =>
        rw [(del_eff s q r hf).peers, upd_apply]
        split
        · rename_i e; subst e
          have := (b.find_iff.mp hf).2.1
          rw [k.id] at this; subst this; exact absurd rfl hd
        · rfl
    | _ =>
      have e := pstep b h p
      generalize t.peers p = y at e ⊢
      cases e with
      | new pid' _ hq => have := k.m; omega
      | free pid' ha' => cases ha'
      | _ => simp [finished, redial, backoff_eq]
  have e := pstep b h p
  have key : ∀ y, t.peers p = y → y.id = (s.peers p).id → y.ntry < 0 → y.curNtry < 0 →
      (y.state = .disconnected → y.retryArmed = true) → Keeps pid p t := by
    intro y hy h1 h2 h3 h4
    subst hy
    exact ⟨hm', by rw [h1, k.id], by rw [hfr, k.freed], h2, h3, h4⟩
  have hl : left (s.peers p).curNtry < 0 := by
    have := k.cur
    unfold left; split <;> omega
  have hl0 : left (s.peers p).curNtry ≠ 0 := by omega
  generalize hy : t.peers p = y at e
  have k1 := k.ntry
  have k2 := k.cur
  have k3 := k.armed
  refine key y hy ?_ ?_ ?_ ?_ <;> cases e with
  | redial pid' n ha' hf hv =>
    have := (b.find_iff.mp hf).2.1
    rw [k.id] at this; subst this; exact absurd ha' (ha n)
  | new pid' _ hq => have := k.m; omega
  | takeover c x _ hp => rw [hpre] at hp; cases hp
  | _ => first | exact k3 | (simpa using k3) | (simp [finished, backoff_eq, hl, hl0, k1, k2]; done)

/-- When no peer that is connected asks for the replacement of its connection, conn_peer(pid, n) with n < 0 keeps on dialling. -/
theorem C56_retry_partial (who : Nat → Nat) (g : Cfg) (l : List Act) (s : St) (pid p : Nat) (n : Int) (hr : run g init l = some s)
    (hf : find s pid = some p) (ha : (s.peers p).addr ≠ 0) (hn : n < 0)
    (l2 : List Act) (t : St) (ht : run g s (.connPeer pid n :: l2) = some t) (hl : ∀ m, .connPeer pid m ∉ l2) (hd : .delPeer pid ∉ l2)
    (ho : ∀ x ∈ trace g init (l ++ .connPeer pid n :: l2), Orderly who g x.1 x.2 ∧ NoTakeover g x.1 x.2)
    (k : Nat) (hk : getPeerConn t pid = some k) (htorn : (t.conns k).torn = true) : ∃ u, step g t (.retry p) = some u := by
  have b := basic_run basic_init hr
  have hb := b.find_iff.mp hf
  have hrt : run g init (l ++ .connPeer pid n :: l2) = some t := run_append.mpr ⟨s, hr, ht⟩
  have bt := basic_run basic_init hrt
  -- the peers of all states on the way
  have keep : ∀ (l3 l4 : List Act) (u : St), l3 ++ l4 = l2 → run g init (l ++ .connPeer pid n :: l3) = some u → Keeps pid p u →
      run g u l4 = some t → Keeps pid p t := by
    intro l3 l4
    induction l4 generalizing l3 with
    | nil => intro u _ _ ku hu; simp only [run, Option.some.injEq] at hu; rw [← hu]; exact ku
    | cons a l4 ih =>
      intro u he hu ku hut
      simp only [run, Option.bind_eq_some_iff] at hut
      obtain ⟨v, h1, h2⟩ := hut
      have hmem : a ∈ l2 := by rw [← he]; simp
      have hsub : ∀ x ∈ trace g init (l ++ .connPeer pid n :: l3), NoTakeover g x.1 x.2 := by
        intro x hx
        refine (ho x ?_).2
        rw [← he]
        have := trace_append (a := l ++ .connPeer pid n :: l3) (b := a :: l4) hu
        have e1 : l ++ .connPeer pid n :: (l3 ++ a :: l4) = (l ++ .connPeer pid n :: l3) ++ (a :: l4) := by simp
        rw [e1, this]
        exact List.mem_append_left _ hx
      have kv := keeps_step (basic_run basic_init hu) (pre_run g _ u hu hsub) ku (fun m e => hl m (by rw [← e]; exact hmem))
        (fun e => hd (by rw [← e]; exact hmem)) h1
      refine ih (l3 ++ [a]) v (by simp [he]) ?_ kv h2
      have : l ++ Act.connPeer pid n :: (l3 ++ [a]) = (l ++ .connPeer pid n :: l3) ++ [a] := by simp
      rw [this]
      exact run_append.mpr ⟨u, hu, by simp [run, h1]⟩
  simp only [run, Option.bind_eq_some_iff] at ht
  obtain ⟨u, h1, h2⟩ := ht
  have ku : Keeps pid p u := by
    simp only [step, Option.some.injEq] at h1
    subst h1
    cases dial_eff s pid n with
    | err e h ht =>
      exfalso
      rcases h with ⟨h, _⟩ | ⟨q, h, h', _⟩
      · rw [hf] at h; cases h
      · rw [hf] at h; injection h with h; subst h; exact ha h'
    | ok q hq _ e =>
      rw [hf] at hq; injection hq with hq; subst hq
      have ep : (connPeer s pid n).peers p = redial (s.peers p) n := by rw [e.peers, upd_self]
      refine ⟨by rw [e.m]; exact hb.1, ?_, ?_, ?_, ?_, ?_⟩ <;> rw [ep]
      · exact hb.2.1
      · exact hb.2.2
      · exact hn
      · exact hn
      · simp only [redial]
        intro h
        split
        · simp; omega
        · rename_i h'
          split at h
          · cases h
          · exact absurd h h'
  have kt := keep [] l2 u (by simp) (run_append.mpr ⟨s, hr, by simp [run, h1]⟩) ku h2
  have o := ord_run who g _ t hrt (fun x hx => (ho x hx).1)
  have hft : find t pid = some p := bt.find_iff.mpr ⟨kt.m, kt.id, kt.freed⟩
  have hst : (t.peers p).state = .disconnected := by
    by_cases hst : (t.peers p).state = .disconnected
    · exact hst
    · have := (o.up p kt.m kt.freed hst).1
      have hk' : (t.peers p).conn = k := by simpa [getPeerConn, hft] using hk
      rw [hk', htorn] at this; cases this
  refine ⟨retryTimer t p, ?_⟩
  simp only [step]
  rw [if_pos ⟨kt.m, kt.freed, kt.armed hst⟩]

def noTakeoverB (g : Cfg) (s : St) (a : Act) : Bool :=
  match identity g s a with
  | none => true
  | some (pid, c) => (s.conns c).active || (match find s pid with
    | none => true
    | some p => (s.peers p).state != .connected)

theorem noTakeover_of_check {g : Cfg} {s : St} {a : Act} (h : noTakeoverB g s a = true) : NoTakeover g s a := by
  intro pid c p hi ha hf
  simpa [noTakeoverB, hi, ha, hf] using h

/-- Dialled for ever: a dial that fails, one that succeeds and is lost. -/
example : let l : List Act := [.addPeer 5, .setAddr 5 5]
    let l2 : List Act := [.retry 0, .lost 1, .teardown 1, .retry 0, .established 2 0 0#16, .pong 2 ⟨5, 7⟩ 0#16, .lost 2, .teardown 2]
    (∀ x ∈ trace byAddr init (l ++ .connPeer 5 (-1) :: l2), Orderly (fun _ => 5) byAddr x.1 x.2 ∧ NoTakeover byAddr x.1 x.2) ∧
    (run byAddr init (l ++ .connPeer 5 (-1) :: l2)).map (fun t => (getPeerConn t 5, (t.conns 2).torn, t.cbs)) =
      some (some 2, true, [(1, false), (2, true), (2, false)]) := by
  intro l l2
  have h : (trace byAddr init (l ++ .connPeer 5 (-1) :: l2)).all (fun x => noTakeoverB byAddr x.1 x.2) = true := by decide +kernel
  rw [List.all_eq_true] at h
  exact ⟨fun x hx => ⟨orderly_check (by decide +kernel) x hx, noTakeover_of_check (h x hx)⟩, by decide +kernel⟩

end Salticidae
