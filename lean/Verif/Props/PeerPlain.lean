import Verif.Lemmas.PeerPlain
import Verif.Props.PeerLife
/-!
C111: connections that the user opens on a PeerNetwork with connect(addr).
-/
namespace Salticidae
open PeerNet Spec.PeerNet

/-- Connection `c` is nobody's: it has no peer, get_peer_conn gives it for none, and the peer callback has not been told of it. -/
def PeerNet.nobodys (s : St) (c : Nat) : Prop :=
  (s.conns c).peer = none ∧ (∀ pid, getPeerConn s pid ≠ some c) ∧ ∀ v, (c, v) ∉ s.cbs

/-- **C111** Connections that the user has opened are not peer connections; and the handshake message that is sent over them does not end them. -/
def C111_statement : Prop :=
  (∀ (g : Cfg) (l : List Act) (s : St), run g init l = some s → ∀ c, c < s.n → (s.conns c).active = true → (s.conns c).manual = true → nobodys s c) ∧
  (∀ (g : Cfg) (l : List Act) (s t : St) (c claimed : Nat) (draw : BitVec 16), run g init l = some s → step g s (.ping c ⟨claimed, 0⟩ draw) = some t →
    (t.conns c).asked = (s.conns c).asked)

/-- **C111** is violated: a connection opened to the address of a member is taken for the member's (and C57_violated: it stays so when it is gone). -/
theorem C111_violated : ¬ C111_statement := by
  rintro ⟨h, _⟩
  have e : (run byAddr init manualRun).map (fun s => (s.n, (s.conns 1).active, (s.conns 1).manual, getPeerConn s 5)) = some (2, true, true, some 1) := by decide +kernel
  cases hr : run byAddr init manualRun with
  | none => rw [hr] at e; cases e
  | some s =>
    rw [hr] at e
    simp only [Option.map_some, Option.some.injEq, Prod.mk.injEq] at e
    exact (h _ _ s hr 1 (by omega) e.2.1 e.2.2.1).2.1 5 e.2.2.2

/-- **C111** is violated on the other side too: a node that does not know the address that the message claims closes the connection, and calls the handler for unknown peers. -/
theorem C111_violated_stranger : ¬ C111_statement := by
  rintro ⟨_, h⟩
  have e : (run byAddr init [.accept 7 0, .established 0 0 0#16]).map (fun s => ((step byAddr s (.ping 0 ⟨9, 0⟩ 0#16)).map (fun t => ((t.conns 0).asked, t.unk)), (s.conns 0).asked)) =
    some (some (true, [(9, 0)]), false) := by decide +kernel
  cases hr : run byAddr init [.accept 7 0, .established 0 0 0#16] with
  | none => rw [hr] at e; cases e
  | some s =>
    rw [hr] at e
    simp only [Option.map_some, Option.some.injEq, Prod.mk.injEq] at e
    cases hs : step byAddr s (.ping 0 ⟨9, 0⟩ 0#16) with
    | none => rw [hs] at e; cases e.1
    | some t =>
      rw [hs] at e
      simp only [Option.map_some, Option.some.injEq, Prod.mk.injEq] at e
      have := h _ _ s t 0 9 0#16 hr hs
      rw [e.1.1, e.2] at this; cases this

theorem PeerNet.plain_run (g : Cfg) (l : List Act) (s : St) (h : run g init l = some s) :
    (∀ x ∈ trace g init l, ∀ pid c, identity g x.1 x.2 = some (pid, c) → (x.1.conns c).active = true → (x.1.conns c).manual = true → find x.1 pid = none) → Plain s := by
  revert l s
  refine run_ind (fun _ => plain_init) ?_
  intro l s a t hr b ih ht ho
  rw [trace_snoc hr] at ho
  exact plain_step b (cbs_lt g l s hr) (ih (fun x hx => ho x (List.mem_append_left _ hx)))
    (ho (s, a) (List.mem_append_right _ (by simp))) ht

/-- **C111** partial: whatever else happens, in every history in which no answer to a handshake that comes over a connection which the user has opened is that of a member, these connections are
nobody's.  (Missing: those of members, C111_violated.) -/
theorem C111_dialling_partial (g : Cfg) (l : List Act) (s : St) (h : run g init l = some s)
    (ho : ∀ x ∈ trace g init l, ∀ pid c, identity g x.1 x.2 = some (pid, c) → (x.1.conns c).active = true → (x.1.conns c).manual = true → find x.1 pid = none)
    (c : Nat) (hc : c < s.n) (ha : (s.conns c).active = true) (hm : (s.conns c).manual = true) : nobodys s c := by
  obtain ⟨h1, h2, h3⟩ := plain_run g l s h ho c hc ha hm
  refine ⟨h1, fun pid e => ?_, h3⟩
  unfold getPeerConn at e
  cases hf : find s pid with
  | none => rw [hf] at e; cases e
  | some p =>
    rw [hf] at e
    simp only [Option.map_some, Option.some.injEq] at e
    exact h2 p ((basic_run basic_init h).known _ (find_mem hf)).1 e

/-- **C111** When such a connection is set up, what it sends is the node's address with the number 0, and nothing else changes. -/
theorem C111_setup (g : Cfg) (s t : St) (c cert : Nat) (draw : BitVec 16) (ha : (s.conns c).active = true) (hm : (s.conns c).manual = true)
    (hf : find s (if g.certMode then g.hashCert cert else g.hashAddr (s.conns c).addr) = none) (h : step g s (.established c cert draw) = some t) :
    t = setConn s c { s.conns c with cert := cert, setUp := true, out := (s.conns c).out ++ [.ping ⟨g.listenAddr, 0⟩] } := by
  simp only [step] at h
  split at h
  · cases h
    have hf' : ∀ k, find { s with conns := k } (if g.certMode then g.hashCert cert else g.hashAddr (s.conns c).addr) = none := fun _ => hf
    simp [setup, setConn, upd_apply, pidOf, ha, hm, hf', send, upd_upd]
  · cases h

/-- **C111** partial: the node that is dialled, in whatever state, ignores the message if the address that it claims is a member's; otherwise it calls the handler for unknown peers and closes this
connection.  Its peers, their connections and the peer callback are left as they are in either case.  (Missing: that it stays open, C111_violated_stranger.) -/
theorem C111_dialled_partial (g : Cfg) (s t : St) (c claimed : Nat) (draw : BitVec 16) (hcl : claimed ≠ 0) (ha : (s.conns c).active = false) (ht : (s.conns c).term = false)
    (h : step g s (.ping c ⟨claimed, 0⟩ draw) = some t) :
    (∀ p, find s (pidOf g (s.conns c) claimed) = some p → t = s) ∧
    (find s (pidOf g (s.conns c) claimed) = none →
      t = { s with unk := s.unk ++ [(claimed, c)], conns := upd s.conns c { s.conns c with asked := true } }) := by
  simp only [step] at h
  split at h
  · cases h
    refine ⟨fun p hp => ?_, fun hn => ?_⟩
    · simp [pingClosure, ht, hcl, ha, hp]
    · simp [pingClosure, ht, hcl, ha, hn, dispTerminate, setConn]
  · cases h

/-- The user dials address 6, which is no member's; 5 is a member and connects meanwhile; the dialled connection is answered, and torn down. -/
def PeerNet.plainRun : List Act := [.addPeer 5, .accept 7 0, .connect 6, .established 2 0 0#16, .established 1 0 0#16, .ping 1 ⟨5, 3⟩ 0#16, .pong 2 ⟨6, 3⟩ 0#16, .lost 2, .teardown 2]

example : (run byAddr init plainRun).map (fun s => ((s.conns 2).active && (s.conns 2).manual, (s.conns 2).out, getPeerConn s 5, s.cbs)) =
    some (true, [.ping ⟨9, 0⟩], some 1, [(1, true)]) := by decide +kernel

example : (trace byAddr init plainRun).all (fun x => match identity byAddr x.1 x.2 with
    | some (pid, c) => !((x.1.conns c).active && (x.1.conns c).manual) || (find x.1 pid).isNone
    | none => true) = true := by decide +kernel

end Salticidae
