import Verif.Lemmas.PeerAsk
import Verif.Props.PeerAuth
/-!
C122: who can make the node close the connection of a peer.
-/
namespace Salticidae
open PeerNet Spec.PeerNet Spec.PeerAuth

/-- C122.  The node closes the connection of a connected peer only for a reason that has to do with that peer: the user deletes the peer or dials it again, or somebody with the certificate of the peer makes
a handshake.  Nothing that others send, answer or dial, and no timer, closes it. -/
def C122_statement : Prop := ∀ (g : Cfg), g.certMode = true → ∀ (l : List Act) (s t : St) (a : Act) (pid c : Nat), run g init l = some s → Serves s pid c →
  step g s a = some t → (s.conns c).asked = false → (t.conns c).asked = true → Reason g s pid a

/-- Members 5 and 6 have been given the same address, that of 6, and are dialled: the dial of 5 reaches 6, who shows its own certificate, and the connection becomes that of 6. -/
def sharedAddr : List Act := [.addPeer 5, .addPeer 6, .setAddr 5 7, .setAddr 6 7, .connPeer 5 (-1), .connPeer 6 (-1), .retry 0, .established 2 6 3#16, .pong 2 ⟨7, 9⟩ 0#16]

theorem C122.witness (a : Act) (ha : (run byCert init (sharedAddr ++ [a])).map (fun s => (s.conns 2).asked) = some true)
    (hn : a ≠ .delPeer 6 ∧ (∀ n, a ≠ .connPeer 6 n) ∧ (∀ d h y, a ≠ .ping d h y) ∧ ∀ y, a ≠ .deferred y) : ¬ C122_statement := by
  intro h
  have e : (run byCert init sharedAddr).map (fun s => (find s 6, (s.peers 1).state, (s.peers 1).conn, (s.conns 2).active, (s.conns 2).asked)) =
      some (some 1, .connected, 2, true, false) := by decide +kernel
  cases hr : run byCert init sharedAddr with
  | none => rw [hr] at e; simp at e
  | some s =>
    rw [hr] at e
    simp only [Option.map_some, Option.some.injEq, Prod.mk.injEq] at e
    obtain ⟨e1, e2, e3, e4, e5⟩ := e
    cases hr' : run byCert init (sharedAddr ++ [a]) with
    | none => rw [hr'] at ha; simp at ha
    | some t =>
      rw [hr'] at ha
      simp only [Option.map_some, Option.some.injEq] at ha
      obtain ⟨u, h1, h2⟩ := run_append.mp hr'
      rw [hr] at h1
      injection h1 with h1; subst h1
      have h3 : step byCert s a = some t := by
        simp only [run] at h2
        cases hs : step byCert s a with
        | none => rw [hs] at h2; simp at h2
        | some v => rw [hs] at h2; simpa using h2
      have := h byCert rfl sharedAddr s t a 6 2 hr ⟨by simp [getPeerConn, e1, e3], .inl e4, 1, e1, e2⟩ h3 e5 ha
      rcases this with k | ⟨n, k⟩ | ⟨d, x, y, k | k, _⟩
      · exact hn.1 k
      · exact hn.2.1 n k
      · exact hn.2.2.1 d x y k
      · exact hn.2.2.2 y k.1

/-- The code does not have it: the retry timer of the other member closes the connection of member 6, because the other member still holds it as the connection that was dialled for it. -/
theorem C122_violated : ¬ C122_statement := C122.witness (.retry 0) (by decide +kernel) (by simp)

/-- And so does the deletion of the other member. -/
theorem C122_violated_delete : ¬ C122_statement := C122.witness (.delPeer 5) (by decide +kernel) (by simp)

theorem holds_run (g : Cfg) (hg : g.certMode = true) (l : List Act) (s : St) (h : run g init l = some s) (hd : ∀ e ∈ trace g init l, DialReaches g e.1 e.2) : Holds g s := by
  revert l s
  refine run_ind (fun _ => holds_init g) ?_
  intro l s a t hr b ih ht hd
  rw [trace_snoc hr] at hd
  exact holds_step hg b (pend_run g l s hr).2.1 (toldReal_run g l s hr) (ih (fun e he => hd e (List.mem_append_left _ he))) (hd (s, a) (by simp)) ht

theorem unreported_run (g : Cfg) (l : List Act) (s : St) (h : run g init l = some s) : Unreported s := by
  revert l s
  refine run_ind (by intro e he; simp [init] at he) ?_
  intro l s a t hr b ih ht
  exact unreported_step b (pend_run g l s hr).2.1 ih ht

/-- What holds, after every history in which the answers to dials of peers came from those peers: the connection of a connected peer is closed only for a reason that has to do with that peer.  Connections
from strangers, from other members, from the same address, timers and deletions of others do not close it.  Missing: histories in which somebody else answers at the address of a peer
(`C122_violated`). -/
theorem C122_kept_partial (g : Cfg) (hg : g.certMode = true) (l : List Act) (s t : St) (a : Act) (pid c : Nat) (h : run g init l = some s)
    (hd : ∀ e ∈ trace g init l, DialReaches g e.1 e.2) (hc : Serves s pid c) (ht : step g s a = some t) (h0 : (s.conns c).asked = false) (h1 : (t.conns c).asked = true) :
    Reason g s pid a := by
  have b := basic_run basic_init h
  have i := holds_run g hg l s h hd
  obtain ⟨hgc, ho, p, hf, hst⟩ := hc
  obtain ⟨hshown, hrep, hup⟩ := C119_genuine g hg l s h pid c hgc ho
  unfold Shown at hshown
  have hpc : (s.peers p).conn = c := by simpa [getPeerConn, hf] using hgc
  have hp := b.find_iff.mp hf
  have hcn : c < s.n := by rw [← hpc]; exact (b.idx p hp.1).1
  have au := auth_run g hg l s h
  -- a peer that holds `c` is this one
  have same : ∀ q, q < s.m → (s.peers q).freed = false → (s.peers q).id = pid → q = p := by
    intro q hq hfq e
    have : find s pid = some q := b.find_iff.mpr ⟨hq, e, hfq⟩
    rw [hf] at this; injection this with e; exact e.symm
  have isConn : ∀ q, q < s.m → (s.peers q).conn = c → (s.peers q).id = pid := by
    intro q hq e
    have := (au.conn q hq (by rw [e]; exact ho)).2
    rw [e, hshown] at this; exact this.symm
  have isIn : ∀ q, q < s.m → (s.peers q).inbound = some c → (s.peers q).id = pid := by
    intro q hq e
    have := (i.inb q c hq e).2
    rw [hshown] at this; exact this.symm
  have notOut : ∀ q, q < s.m → (s.peers q).freed = false → (s.peers q).outbound ≠ some c := by
    intro q hq hfq e
    have := (i.out q c hq hfq e).2.1 hup
    rw [hshown] at this
    have := same q hq hfq this.symm
    subst this
    rw [(i.st q hq (by rw [hst]; simp)).1] at e; cases e
  have hping : ∀ d h', AskPing g s d h' c → h'.claimed ≠ 0 ∧ Shown g s d pid := by
    intro d h' k
    obtain ⟨k1, k2, k3⟩ := k
    have hpid : pidOf g (s.conns d) h'.claimed = g.hashCert (s.conns d).cert := by simp [pidOf, hg]
    rw [hpid] at k3
    refine ⟨k1, ?_⟩
    rcases k3 with ⟨k3, k4⟩ | ⟨q, k3, k4⟩
    · subst k4; exact hshown
    · have hq := b.find_iff.mp k3
      unfold Shown
      rw [← hq.2.1]
      rcases k4 with ⟨_, k4⟩ | ⟨_, k4 | k4⟩
      · exact isConn q hq.1 k4
      · exact isIn q hq.1 k4
      · subst k4; rw [hq.2.1]; exact hshown
  rcases ask_step ht hcn h1 with k | k
  · rw [h0] at k; cases k
  cases a with
  | delPeer pid' =>
    obtain ⟨q, k1, k2⟩ := k
    have hq := b.find_iff.mp k1
    left
    rw [← hq.2.1]
    rcases k2 with k2 | k2 | k2
    · rw [isConn q hq.1 k2]
    · rw [isIn q hq.1 k2]
    · exact absurd k2 (notOut q hq.1 hq.2.2)
  | connPeer pid' n =>
    obtain ⟨q, k1, k2⟩ := k
    have hq := b.find_iff.mp k1
    exact .inr (.inl ⟨n, by rw [← hq.2.1, isConn q hq.1 k2]⟩)
  | established d x y =>
    obtain ⟨k1, k2 | ⟨e, he, k2⟩⟩ := k
    · subst k2; rw [hup] at k1; cases k1
    · subst k2; exact absurd hrep (unreported_run g l s h e he).2.2
  | ping d h' y =>
    have := hping d h' k
    exact .inr (.inr ⟨d, h', y, .inl rfl, this.1, this.2⟩)
  | deferred y =>
    obtain ⟨h', d, r, k1, k2⟩ := k
    have := hping d h' k2
    exact .inr (.inr ⟨d, h', y, .inr ⟨rfl, by rw [k1]; exact List.mem_cons_self⟩, this.1, this.2⟩)
  | pong d h' y =>
    obtain ⟨k1, k2, k3⟩ := k
    have hpid : pidOf g (s.conns d) (s.conns d).addr = g.hashCert (s.conns d).cert := by simp [pidOf, hg]
    rw [hpid] at k3
    rcases k3 with ⟨k3, k4⟩ | ⟨q, k3, k4, k5⟩
    · subst k4; rw [hshown, hf] at k3; cases k3
    · have hq := b.find_iff.mp k3
      rcases k5 with k5 | k5
      · exact absurd k5 (notOut q hq.1 hq.2.2)
      · subst k5
        rw [hshown, hf] at k3
        injection k3 with e; subst e
        rw [hst] at k4; cases k4
  | retry q =>
    exact absurd k.2.2.2 (notOut q k.2.2.1 k.1)
  | _ => exact k.elim

-- the history of C119, in which everybody is dialled at the right place
example : (run byCert init certRun).map (fun s => (getPeerConn s 5, (s.peers 0).state, (s.conns 2).active, (s.conns 2).asked)) = some (some 2, .connected, true, false) := by decide +kernel

/-- `DialReaches` as a test. -/
def C122.reaches (g : Cfg) (e : St × Act) : Bool := match e.2 with
  | .established d cert _ => match (e.1.conns d).peer with
    | none => true
    | some p => g.hashCert cert == (e.1.peers p).id
  | _ => true

theorem C122.reaches_ok {g : Cfg} {e : St × Act} (h : C122.reaches g e = true) : DialReaches g e.1 e.2 := by
  intro d cert y p h1 _ h3 _
  unfold C122.reaches at h
  rw [h1] at h
  simp only [h3] at h
  simpa using h

example : ∀ e ∈ trace byCert init certRun, DialReaches byCert e.1 e.2 := by
  have : (trace byCert init certRun).all (C122.reaches byCert) = true := by decide +kernel
  exact fun e he => C122.reaches_ok (List.all_eq_true.mp this e he)

-- in that history the connection of member 6 was closed because 6 made another one, and the one of 5 is closed if 5 is deleted or dialled again
example : (run byCert init (certRun.take 12)).map (fun s => (s.conns 3).asked) = some false ∧ (run byCert init (certRun.take 13)).map (fun s => (s.conns 3).asked) = some true ∧
    certRun[12]? = some (.ping 4 ⟨8, 2⟩ 4#16) ∧ (run byCert init (certRun ++ [.delPeer 5])).map (fun s => (s.conns 2).asked) = some true ∧
    (run byCert init (certRun ++ [.connPeer 5 1])).map (fun s => (s.conns 2).asked) = some true := by decide +kernel

-- with identities made from addresses, somebody who claims the address of member 6 has its connection closed
example : (run byAddr init [.addPeer 6, .accept 8 6, .established 1 0 0#16, .ping 1 ⟨6, 1⟩ 4#16, .accept 9 4, .established 2 0 0#16, .ping 2 ⟨6, 1⟩ 4#16]).map
    (fun s => (getPeerConn s 6, (s.conns 1).asked)) = some (some 1, true) := by decide +kernel

end Salticidae
