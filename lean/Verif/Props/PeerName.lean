import Verif.Lemmas.PeerName
import Verif.Props.PeerLife
/-!
C106: asking a connection for its peer.
-/
namespace Salticidae
open PeerNet Spec.PeerNet

/-- Connections know their peers, after every history. -/
def C106_statement : Prop := ∀ (g : Cfg) (l : List Act) (s : St), run g init l = some s → Names l s

theorem not_C106 {l : List Act} (h : ∀ s, run byAddr init l = some s → ¬ Names l s) (hr : (run byAddr init l).isSome = true) : ¬ C106_statement := by
  intro k
  cases e : run byAddr init l with
  | none => rw [e] at hr; cases hr
  | some s => exact h s e (k _ _ s e)

/-- A dial fails and its connection is torn down, the peer is deleted: the history is orderly. -/
def deadDial : List Act := [.addPeer 5, .setAddr 5 5, .connPeer 5 (-1), .retry 0, .lost 1, .teardown 1, .retry 0, .delPeer 5]

/-- A program that kept the handle of the connection that was torn down asks it for its peer: the dispatcher follows a pointer to the
deleted peer. -/
theorem C106_violated : ¬ C106_statement := by
  refine not_C106 (l := deadDial) (fun s hr hn => ?_) (by decide +kernel)
  have e : (run byAddr init deadDial).map (fun s => (s.n, named s 1)) = some (3, .ub) := by decide +kernel
  rw [hr] at e
  simp only [Option.map_some, Option.some.injEq, Prod.mk.injEq] at e
  exact hn.1 1 (by omega) e.2

example : ∀ x ∈ trace byAddr init deadDial, Orderly (fun _ => 5) byAddr x.1 x.2 := orderly_check (by decide +kernel)

/-- The remote end of one connection claims to be 5 and then to be 6: the connection of peer 5 says that it is that of peer 6. -/
theorem C106_violated_two_identities : ¬ C106_statement := by
  refine not_C106 (l := twoRun) (fun s hr hn => ?_) (by decide +kernel)
  have e : (run byAddr init twoRun).map (fun s => (getPeerConn s 5, named s 2)) = some (some 2, .peer 6 0) := by decide +kernel
  rw [hr] at e
  simp only [Option.map_some, Option.some.injEq, Prod.mk.injEq] at e
  obtain ⟨v, _, h⟩ := hn.2.1 5 2 e.1
  rw [e.2] at h; cases h

/-- In the mode that identifies peers by their certificates: peer 5 is dialled, and something else, with another certificate, answers. -/
def otherCert : List Act := [.addPeer 5, .setAddr 5 7, .connPeer 5 (-1), .retry 0, .established 1 6 0#16]

/-- The connection says that it is that of peer 5 although the other side has shown a certificate that is not the one of peer 5. -/
theorem C106_violated_unproved : ¬ C106_statement := by
  intro h
  have e : (run ⟨true, id, id, 9⟩ init otherCert).map (fun s => (getPeerConn s 5, (s.conns 1).cert, named s 1)) =
      some (some 0, 6, .peer 5 7) := by decide +kernel
  cases hr : run ⟨true, id, id, 9⟩ init otherCert with
  | none => rw [hr] at e; simp at e
  | some s =>
    rw [hr] at e
    simp only [Option.map_some, Option.some.injEq, Prod.mk.injEq] at e
    have := (h _ _ s hr).2.2 1 5 7 e.2.2
    rw [e.1] at this; cases this

theorem book_run (g : Cfg) (l : List Act) (s : St) (h : run g init l = some s) :
    ∀ pid, (find s pid).map (fun p => (s.peers p).addr) = book pid l := by
  revert l s
  refine run_ind (fun pid => by rfl) ?_
  intro l s a t hr b ih ht
  exact book_step b ih ht

theorem pas_run (g : Cfg) (l : List Act) (s : St) (h : run g init l = some s) : Pas s := by
  revert l s
  refine run_ind pas_init ?_
  intro l s a t hr b ih ht
  exact pas_step b ih ht

theorem own_run (who : Nat → Nat) (g : Cfg) (l : List Act) (s : St) (h : run g init l = some s) :
    (∀ x ∈ trace g init l, Orderly who g x.1 x.2) → Placeholders s ∧ Own who s := by
  revert l s
  refine run_ind (fun _ => ⟨by simp [Placeholders, init], own_init who⟩) ?_
  intro l s a t hr b ih ht ho
  rw [trace_snoc hr] at ho
  have h1 := fun x hx => ho x (List.mem_append_left _ hx)
  have h2 := ih h1
  exact ⟨placeholders_step h2.1 ht, own_step b (ord_run who g l s hr h1) h2.1 h2.2 (ho (s, a) (List.mem_append_right _ (by simp))) ht⟩

/-- What a connection says about a peer is true, after every history: the peer is a member, with the address that was set. -/
theorem C106_members_partial (g : Cfg) (l : List Act) (s : St) (h : run g init l = some s) (c pid v : Nat)
    (hn : named s c = .peer pid v) : member pid l = true ∧ book pid l = some v := by
  have b := basic_run basic_init h
  unfold named at hn
  split at hn
  · cases hn
  · rename_i p hp
    split at hn
    · cases hn
    · rename_i hf
      injection hn with h1 h2
      have hfind := b.find_iff.mpr ⟨(b.link c p hp).2, h1, by simpa using hf⟩
      have hb := book_run g l s h pid
      rw [hfind] at hb
      simp only [Option.map_some, h2] at hb
      refine ⟨?_, hb.symm⟩
      have := C58_membership g l s h pid
      rw [← this]
      simp [hasPeer, hfind]

/-- Connections that came from outside, and the placeholders of peers that have never been connected, can always be asked for their peers,
and if one has a peer then it is that peer's connection. -/
theorem C106_incoming_partial (g : Cfg) (l : List Act) (s : St) (h : run g init l = some s) (c : Nat) (ha : (s.conns c).active = false) :
    named s c ≠ .ub ∧ ∀ pid v, named s c = .peer pid v → getPeerConn s pid = some c := by
  have b := basic_run basic_init h
  have i := pas_run g l s h
  unfold named
  cases hp : (s.conns c).peer with
  | none => simp
  | some p =>
    obtain ⟨h1, h2⟩ := i c p ha hp
    simp only [h1, Bool.false_eq_true, if_false]
    refine ⟨by simp, fun pid v e => ?_⟩
    injection e with e1 e2
    simp [getPeerConn, b.find_iff.mpr ⟨(b.link c p hp).2, e1, h1⟩, h2]

/-- When a handshake has been completed, its connection says that it is that of the peer whose identity was shown. -/
theorem C106_connected_partial (g : Cfg) (l : List Act) (s t : St) (a : Act) (c : Nat) (h : run g init l = some s) (ht : step g s a = some t)
    (hc : t.cbs = s.cbs ++ [(c, true)]) :
    ∃ pid v, identity g s a = some (pid, c) ∧ book pid l = some v ∧ named t c = .peer pid v := by
  have b := basic_run basic_init h
  have conc : ∀ x : List (Nat × Bool), x = s.cbs → x = s.cbs ++ [(c, true)] → False := by
    intro x h1 h2; rw [h1] at h2
    have := congrArg List.length h2
    simp at this
  cases step_eff ht with
  | quiet hcbs _ _ => exact (conc _ hcbs hc).elim
  | dial p _ hcbs _ _ _ => exact (conc _ hcbs hc).elim
  | add p _ hcbs _ _ _ => exact (conc _ hcbs hc).elim
  | down p d _ _ hcbs _ _ _ =>
    rw [hcbs] at hc
    have := List.append_cancel_left hc
    simp at this
  | accept p d pid hi hf hst hterm hcbs hconn hlink hup hl =>
    rw [hcbs] at hc
    have := List.append_cancel_left hc
    simp only [List.cons.injEq, Prod.mk.injEq, and_true] at this
    subst this
    have hb := book_run g l s h pid
    rw [hf] at hb
    have hid : (∀ p, a ≠ .addPeer p) ∧ (∀ p, a ≠ .delPeer p) ∧ (∀ p v, a ≠ .setAddr p v) := by
      cases a <;> simp [identity] at hi ⊢
    have b' := b.step ht
    have hf' : find t pid = some p := by rw [find_of_known (known_step ht hid.1 hid.2.1)]; exact hf
    have k := b'.find_iff.mp hf'
    refine ⟨pid, (s.peers p).addr, hi, hb.symm, ?_⟩
    simp only [named, hl, k.2.2, Bool.false_eq_true, if_false, k.2.1, addr_step b ht hid.2.2 hid.1 p]

/-- In orderly histories the connection of a member says that it is that member's, with the address that was set, and
connections that have not been torn down can be asked for their peers. -/
theorem C106_names_partial (who : Nat → Nat) (g : Cfg) (l : List Act) (s : St) (h : run g init l = some s)
    (ho : ∀ x ∈ trace g init l, Orderly who g x.1 x.2) :
    (∀ c, (s.conns c).torn = false → named s c ≠ .ub) ∧
    (∀ pid c, getPeerConn s pid = some c → ∃ v, book pid l = some v ∧ named s c = .peer pid v) := by
  have b := basic_run basic_init h
  have o := ord_run who g l s h ho
  have w := (own_run who g l s h ho).2
  refine ⟨fun c ht => ?_, fun pid c hc => ?_⟩
  · unfold named
    cases hp : (s.conns c).peer with
    | none => simp
    | some p => simp [(o.link c p ht hp).1]
  · unfold getPeerConn at hc
    cases hf : find s pid with
    | none => rw [hf] at hc; cases hc
    | some p =>
      rw [hf] at hc
      simp only [Option.map_some, Option.some.injEq] at hc
      have k := b.find_iff.mp hf
      have hb := book_run g l s h pid
      rw [hf] at hb
      refine ⟨(s.peers p).addr, hb.symm, ?_⟩
      rw [← hc]
      simp [named, (w.own p k.1 k.2.2).1, k.2.2, k.2.1]

/-- The history of C57: a dial that fails, one that succeeds and is lost, and a connection from the peer.  The failed dial and the
one that failed first still name the peer; the connection that was replaced does not. -/
example : (∀ x ∈ trace byAddr init orderlyRun, Orderly (fun _ => 5) byAddr x.1 x.2) ∧
    (run byAddr init orderlyRun).map (fun s => (getPeerConn s 5, (List.range s.n).map (named s))) =
      some (some 3, [.null, .peer 5 5, .null, .peer 5 5]) :=
  ⟨orderly_check (by decide +kernel), by decide +kernel⟩

/-- The step that completes a handshake, at the end of that history. -/
example : (run byAddr init orderlyRun.dropLast).bind (fun s => (step byAddr s (.ping 3 ⟨5, 3⟩ 9#16)).map (fun t => (t.cbs.drop s.cbs.length, named s 3, named t 3))) =
    some ([(3, true)], .null, .peer 5 5) := by decide +kernel

/-- Adding a member twice keeps its address, deleting it forgets the address; a peer that has never been connected has a connection that
names it. -/
example : book 5 [.addPeer 5, .setAddr 5 7, .addPeer 5] = some 7 ∧ book 5 [.addPeer 5, .setAddr 5 7, .delPeer 5, .addPeer 5] = some 0 ∧
    book 5 [.setAddr 5 7] = none ∧ book 6 [.addPeer 5, .setAddr 5 7, .addPeer 6] = some 0 ∧
    (run byAddr init [.addPeer 5, .setAddr 5 7]).map (fun s => named s 0) = some (.peer 5 7) := by decide +kernel

end Salticidae
