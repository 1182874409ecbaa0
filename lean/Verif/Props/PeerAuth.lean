import Verif.Lemmas.PeerAuth
import Verif.Spec.PeerAuth
import Verif.Props.PeerLife
/-!
C119, C120: peers that are identified by their certificates.
-/
namespace Salticidae
open PeerNet Spec.PeerNet Spec.PeerAuth

/-- The identities of the nodes are their certificates (the hash function does not matter). -/
def byCert : Cfg := ⟨true, id, id, 9⟩

theorem auth_run (g : Cfg) (hg : g.certMode = true) (l : List Act) (s : St) (h : run g init l = some s) : Auth g s := by
  revert l s
  refine run_ind (auth_init g) ?_
  intro l s a t hr b ih ht
  exact auth_step hg b (cbs_lt g l s hr) ih ht

theorem toldReal_run (g : Cfg) (l : List Act) (s : St) (h : run g init l = some s) : ToldReal s := by
  revert l s
  refine run_ind (by intro p hp; simp [init] at hp) ?_
  intro l s a t hr b ih ht
  exact toldReal_step b ih ht

/-- C119.  After every history, whatever anybody has sent, dialled or answered: the connection that get_peer_conn(pid) gives, and over which send_msg(pid) sends, is one whose other side has shown the
certificate of `pid`, and which was set up and reported, or has never been open. -/
theorem C119_genuine (g : Cfg) (hg : g.certMode = true) (l : List Act) (s : St) (h : run g init l = some s) (pid c : Nat) (hc : getPeerConn s pid = some c)
    (ho : Opened s c) : Shown g s c pid ∧ Reported s c ∧ (s.conns c).setUp = true := by
  have b := basic_run basic_init h
  unfold getPeerConn at hc
  cases hf : find s pid with
  | none => rw [hf] at hc; cases hc
  | some p =>
    rw [hf] at hc
    simp only [Option.map_some, Option.some.injEq] at hc
    have k := b.find_iff.mp hf
    have := ((auth_run g hg l s h).conn p k.1 (by rw [hc]; exact ho)).2
    have ht := toldReal_run g l s h p k.1 (by rw [hc]; exact ho)
    rw [hc, k.2.1] at this
    rw [hc] at ht
    exact ⟨this, ht, ((pend_run g l s h).2.1.cbs c ht).2⟩

/-- C119.  A connection that the peer callback is told to be connected is one whose other side has shown the certificate of a member; that member's connection it is from then on. -/
theorem C119_reported (g : Cfg) (hg : g.certMode = true) (l : List Act) (s t : St) (a : Act) (c : Nat) (h : run g init l = some s) (ht : step g s a = some t)
    (hn : ¬ Reported s c) (hc : Reported t c) : ∃ pid, Shown g t c pid ∧ member pid l = true ∧ getPeerConn t pid = some c := by
  have b := basic_run basic_init h
  unfold Reported at hn hc
  rcases report_step ht hc with hr | ⟨pid, p, hi, hf, hl⟩
  · exact absurd hr hn
  · have k := identity_proven hg b ht hi
    refine ⟨pid, (k.2.step ht k.1).2, ?_, ?_⟩
    · rw [← C58_membership g l s h pid]; simp [hasPeer, hf]
    · have hid : (∀ p, a ≠ .addPeer p) ∧ (∀ p, a ≠ .delPeer p) := by
        cases a <;> simp [identity] at hi ⊢
      have hf' : find t pid = some p := by rw [find_of_known (known_step ht hid.1 hid.2)]; exact hf
      unfold getPeerConn
      rw [hf']
      simp only [Option.map_some, Option.some.injEq]
      have gone : ∀ x : List (Nat × Bool), x = s.cbs → t.cbs = x → False := fun x h1 h2 => by rw [h2, h1] at hc; exact hn hc
      cases step_eff ht with
      | quiet e => exact (gone _ rfl e).elim
      | dial _ _ e => exact (gone _ rfl e).elim
      | add _ _ e => exact (gone _ rfl e).elim
      | down _ _ _ _ e => rw [e] at hc; simp at hc; exact (hn hc).elim
      | accept q d pid' hi' hf'' _ _ e hconn =>
        rw [hi'] at hi; injection hi with hi
        injection hi with e1 e2; subst e1 e2
        rw [hf] at hf''; injection hf'' with e3; subst e3
        rw [hconn, if_pos rfl]

/-- C119.  And it stays so: what certificate a connection has shown, once it is a peer's, does not change. -/
theorem C119_fixed (g : Cfg) (hg : g.certMode = true) (l : List Act) (s t : St) (a : Act) (pid c : Nat) (h : run g init l = some s)
    (hc : getPeerConn s pid = some c) (ho : Opened s c) (ht : step g s a = some t) : (t.conns c).cert = (s.conns c).cert := by
  have b := basic_run basic_init h
  unfold getPeerConn at hc
  cases hf : find s pid with
  | none => rw [hf] at hc; cases hc
  | some p =>
    rw [hf] at hc
    simp only [Option.map_some, Option.some.injEq] at hc
    have k := b.find_iff.mp hf
    have := ((auth_run g hg l s h).conn p k.1 (by rw [hc]; exact ho)).1
    rw [hc] at this
    exact cert_step ht (by rw [← hc]; exact (b.idx p k.1).1) this

/-- Members 5 and 6 are dialled and dial; the connection from 6 and the one to 5 win; that of 6 is replaced by one of 6 that comes in later, then lost. -/
def certRun : List Act := [.addPeer 5, .addPeer 6, .setAddr 5 7, .connPeer 5 (-1), .retry 0, .established 2 5 3#16, .pong 2 ⟨7, 9⟩ 0#16,
  .accept 8 6, .established 3 0 0#16, .ping 3 ⟨8, 1⟩ 4#16, .accept 8 6, .established 4 0 0#16, .ping 4 ⟨8, 2⟩ 4#16, .lost 3, .teardown 3, .deferred 4#16]

example : (run byCert init certRun).map (fun s => (getPeerConn s 5, getPeerConn s 6, (List.range s.n).map (fun c => (s.conns c).cert), s.cbs)) =
    some (some 2, some 4, [0, 0, 5, 6, 6], [(2, true), (3, true), (3, false), (4, true)]) := by decide +kernel

-- somebody without the certificate who claims the address of member 6, or answers for member 5, is not reported
example : (run byCert init [.addPeer 5, .addPeer 6, .setAddr 5 7, .connPeer 5 (-1), .retry 0, .established 2 3 3#16, .pong 2 ⟨7, 9⟩ 0#16, .accept 8 4, .established 3 0 0#16, .ping 3 ⟨6, 1⟩ 4#16]).map
    (fun s => ((getPeerConn s 5, getPeerConn s 6), s.cbs.length, s.unk)) = some ((some 0, some 1), 0, [(6, 3)]) := by decide +kernel

-- with identities made from addresses it is enough to claim the address
example : (run byAddr init [.addPeer 6, .accept 8 4, .established 1 0 0#16, .ping 1 ⟨6, 1⟩ 4#16]).map (fun s => (getPeerConn s 6, (s.conns 1).addr, s.cbs)) =
    some (some 1, 8, [(1, true)]) := by decide +kernel

/-! ## C120 -/

/-- C120.  Whatever has happened, a connection in use that says that it is that of a member (get_peer_id()) is one whose other side has shown the certificate of that member; so that a handler may ask the
connection of a message who has sent it. -/
def C120_statement : Prop := ∀ (g : Cfg), g.certMode = true → ∀ (l : List Act) (s : St), run g init l = some s → ∀ c pid v, InUse s c → Opened s c →
  named s c = .peer pid v → Shown g s c pid

/-- Members 5 and 6; 6 answers at the address at which 5 is dialled, with its own certificate, and leaves the handshake where it is. -/
def impostor : List Act := [.addPeer 5, .addPeer 6, .setAddr 5 7, .connPeer 5 (-1), .retry 0, .established 2 6 0#16]

/-- The code does not have it: the connection of member 6 is in use and says that it is that of member 5. -/
theorem C120_violated : ¬ C120_statement := by
  intro h
  have e : (run byCert init impostor).map (fun s => (s.n, (s.conns 2).setUp, (s.conns 2).asked, (s.conns 2).term, (s.conns 2).active)) = some (3, true, false, false, true) ∧
      (run byCert init impostor).map (fun s => (named s 2, (s.conns 2).cert)) = some (.peer 5 7, 6) := by decide +kernel
  cases hr : run byCert init impostor with
  | none => rw [hr] at e; simp at e
  | some s =>
    rw [hr] at e
    simp only [Option.map_some, Option.some.injEq, Prod.mk.injEq] at e
    obtain ⟨⟨e1, e2, e3, e4, e5⟩, e6, e7⟩ := e
    have := h byCert rfl impostor s hr 2 5 7 ⟨by omega, e2, e3, e4⟩ (.inl e5) e6
    unfold Shown byCert at this
    rw [e7] at this
    exact absurd this (by decide)

/-- It can go on like this for ever: heartbeats of the impostor are answered, its handshake pings are ignored, and when the peer's timer closes the connection there is the next one. -/
theorem C120_violated_again (k : Nat) : (run byCert init (impostor ++ List.replicate k (.ping 2 heartbeat 0#16))).map
    (fun s => (named s 2, (s.conns 2).cert, (s.conns 2).asked, (s.conns 2).out.length)) = some (.peer 5 7, 6, false, k + 1) := by
  have hping : ∀ s : St, s.n = 3 ∧ (s.conns 2).setUp = true ∧ (s.conns 2).term = false →
      ∃ t, step byCert s (.ping 2 heartbeat 0#16) = some t ∧ t = send s 2 (.pong heartbeat) := by
    intro s ⟨h1, h2, h3⟩
    refine ⟨_, ?_, rfl⟩
    simp only [step]
    rw [if_pos ⟨by omega, h2⟩]
    simp [pingClosure, h3, heartbeat]
  have go : ∀ (k : Nat) (s : St), s.n = 3 → (s.conns 2).setUp = true → (s.conns 2).term = false →
      ∃ t, run byCert s (List.replicate k (.ping 2 heartbeat 0#16)) = some t ∧ named t 2 = named s 2 ∧ (t.conns 2).cert = (s.conns 2).cert ∧
        (t.conns 2).asked = (s.conns 2).asked ∧ (t.conns 2).out.length = (s.conns 2).out.length + k := by
    intro k
    induction k with
    | zero => intro s _ _ _; exact ⟨s, rfl, rfl, rfl, rfl, rfl⟩
    | succ k ih =>
      intro s h1 h2 h3
      obtain ⟨t, ht, e⟩ := hping s ⟨h1, h2, h3⟩
      have c2 : t.conns 2 = { s.conns 2 with out := (s.conns 2).out ++ [.pong heartbeat] } := by rw [e]; simp [send, setConn, upd]
      have c3 : t.n = 3 := by rw [e]; exact h1
      have c4 : t.peers = s.peers := by rw [e]; rfl
      obtain ⟨u, hu, u1, u2, u3, u4⟩ := ih t c3 (by rw [c2]; exact h2) (by rw [c2]; exact h3)
      refine ⟨u, ?_, ?_, ?_, ?_, ?_⟩
      · simp only [List.replicate_succ, run, ht, Option.bind_some]; exact hu
      · rw [u1]; unfold named; rw [c2, c4]
      · rw [u2, c2]
      · rw [u3, c2]
      · rw [u4, c2]; simp; omega
  have e : (run byCert init impostor).map (fun s => (s.n, (s.conns 2).setUp, (s.conns 2).term, (s.conns 2).asked, (s.conns 2).out.length)) = some (3, true, false, false, 1) ∧
      (run byCert init impostor).map (fun s => (named s 2, (s.conns 2).cert)) = some (.peer 5 7, 6) := by decide +kernel
  cases hr : run byCert init impostor with
  | none => rw [hr] at e; simp at e
  | some s =>
    rw [hr] at e
    simp only [Option.map_some, Option.some.injEq, Prod.mk.injEq] at e
    obtain ⟨⟨e1, e2, e3, e4, e5⟩, e6, e7⟩ := e
    obtain ⟨t, ht, t1, t2, t3, t4⟩ := go k s e1 e2 e3
    have : run byCert init (impostor ++ List.replicate k (.ping 2 heartbeat 0#16)) = some t := run_append.mpr ⟨s, hr, ht⟩
    rw [this]
    simp only [Option.map_some, t1, t2, t3, t4, e4, e5, e6, e7, Nat.add_comm 1 k]

/-- What holds, after every history: connections that came from outside, and those that have been reported as connected, say truly whose they are.  Missing: connections that the node has dialled and whose
handshake is not completed (`C120_violated`). -/
theorem C120_named_partial (g : Cfg) (hg : g.certMode = true) (l : List Act) (s : St) (h : run g init l = some s) (c pid v : Nat) (ho : Opened s c)
    (hn : named s c = .peer pid v) (hc : (s.conns c).active = false ∨ Reported s c) : Shown g s c pid := by
  unfold named at hn
  split at hn
  · cases hn
  · rename_i p hp
    split at hn
    · cases hn
    · injection hn with e1 e2
      rcases (auth_run g hg l s h).link c p hp ho with k | ⟨k1, k2⟩
      · rw [← e1]; exact k.2
      · rcases hc with hc | hc
        · rw [hc] at k1; cases k1
        · exact absurd hc k2

example : (run byCert init certRun).map (fun s => (List.range s.n).map (named s)) = some [.null, .null, .peer 5 7, .null, .peer 6 0] := by decide +kernel

end Salticidae
