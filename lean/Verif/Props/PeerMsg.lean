import Verif.Model.PeerMsg
import Verif.Props.PeerAuth
/-!
C121: whose messages the handlers of a PeerNetwork are given.
-/
namespace Salticidae
open PeerNet Spec.PeerNet Spec.PeerAuth PeerMsg

/-- C121.  Whatever has happened, a message that a handler is given has come over a connection that the peer callback was told to be connected. -/
def C121_statement : Prop := ∀ (g : Cfg) (l : List MAct) (s t : MSt) (m c : Nat), mrun g minit l = some s → mstep g s .handle = some t →
  t.handed = s.handed ++ [(m, c)] → Reported s.net c

namespace PeerMsg

theorem mrun_append {g : Cfg} {s t : MSt} {l k : List MAct} : mrun g s (l ++ k) = some t ↔ ∃ u, mrun g s l = some u ∧ mrun g u k = some t := by
  induction l generalizing s with
  | nil => simp [mrun]
  | cons a l ih =>
    simp only [List.cons_append, mrun, Option.bind_eq_some_iff]
    constructor
    · rintro ⟨v, h1, h2⟩; obtain ⟨u, h3, h4⟩ := ih.mp h2; exact ⟨u, ⟨v, h1, h3⟩, h4⟩
    · rintro ⟨u, ⟨v, h1, h3⟩, h4⟩; exact ⟨v, h1, ih.mpr ⟨u, h3, h4⟩⟩

/-- A placeholder is not open. -/
theorem shut_run (g : Cfg) (l : List Act) (s : St) (h : run g init l = some s) :
    ∀ c, c < s.n → (s.conns c).active = false → (s.conns c).addr = 0 → (s.conns c).term = true := by
  revert l s
  refine run_ind (by intro c hc; simp [init] at hc) ?_
  intro l s a t hr b i h c hc ha hd
  have hl := life_step h
  by_cases hc' : c < s.n
  · rw [hl.active c hc'] at ha
    rw [hl.addr c hc'] at hd
    exact (hl.term c hc').mpr (.inl (i c hc' ha hd))
  · rcases new_conn h c hc hc' with k | k
    · exact absurd hd (k.2.1 ha)
    · exact k.2

/-- The steps of the network in a history. -/
def nets : List MAct → List Act
  | [] => []
  | .net a :: l => a :: nets l
  | _ :: l => nets l

theorem net_run {g : Cfg} {s t : MSt} {l : List MAct} (h : mrun g s l = some t) : run g s.net (nets l) = some t.net := by
  induction l generalizing s with
  | nil => cases h; rfl
  | cons a l ih =>
    simp only [mrun, Option.bind_eq_some_iff] at h
    obtain ⟨u, h1, h2⟩ := h
    have k := ih h2
    cases a with
    | net a =>
      simp only [mstep, Option.map_eq_some_iff] at h1
      obtain ⟨n, hn, rfl⟩ := h1
      simp only [nets, run, hn, Option.bind_some]
      exact k
    | recv m c =>
      simp only [mstep] at h1
      split at h1 <;> cases h1
      exact k
    | handle =>
      simp only [mstep] at h1
      split at h1 <;> cases h1
      exact k

/-- A node that knows nobody; somebody connects (with TLS: with some certificate), sends `k` messages, and no handshake. -/
def stranger (k : Nat) : List MAct := [.net (.accept 8 4), .net (.established 0 0 0#16)] ++ (List.range k).flatMap (fun m => [.recv m 0, .handle])

theorem stranger_run (g : Cfg) (k : Nat) : ∃ s, mrun g minit (stranger k) = some s ∧ s.queue = [] ∧ s.handed = (List.range k).map (fun m => (m, 0)) ∧
    s.net.n = 1 ∧ (s.net.conns 0).setUp = true ∧ (s.net.conns 0).term = false ∧ (s.net.conns 0).asked = false ∧ s.net.cbs = [] ∧ s.net.unk = [] ∧ s.net.known = [] := by
  have go : ∀ (ms : List Nat) (s : MSt), s.queue = [] → s.net.n = 1 → (s.net.conns 0).setUp = true → (s.net.conns 0).term = false →
      ∃ t, mrun g s (ms.flatMap (fun m => [.recv m 0, .handle])) = some t ∧ t.queue = [] ∧ t.handed = s.handed ++ ms.map (fun m => (m, 0)) ∧ t.net = s.net := by
    intro ms
    induction ms with
    | nil => intro s h1 _ _ _; exact ⟨s, rfl, h1, by simp, rfl⟩
    | cons m ms ih =>
      intro s h1 h2 h3 h4
      obtain ⟨t, t1, t2, t3, t4⟩ := ih { s with queue := [], handed := s.handed ++ [(m, 0)] } rfl h2 h3 h4
      refine ⟨t, ?_, t2, by simp [t3], t4⟩
      have e1 : mstep g s (.recv m 0) = some { s with queue := [(m, 0)] } := by
        simp only [mstep, h1]; rw [if_pos ⟨by omega, h3, h4⟩]; rfl
      have e2 : mstep g { s with queue := [(m, 0)] } .handle = some { s with queue := [], handed := s.handed ++ [(m, 0)] } := rfl
      simp only [List.flatMap_cons, List.cons_append, List.nil_append, mrun, e1, e2, Option.bind_some]
      exact t1
  obtain ⟨s, s1, s2, s3, s4⟩ := go (List.range k) ⟨_, [], []⟩ rfl
    (show (PeerNet.setup g (PeerNet.setConn { PeerNet.init with n := 1, conns := PeerNet.upd PeerNet.init.conns 0 (PeerNet.newConn 8 4 false) } 0 (PeerNet.newConn 8 4 false)) 0 0#16).n = 1 by rfl) rfl rfl
  refine ⟨s, mrun_append.mpr ⟨_, ?_, s1⟩, s2, by simpa using s3, ?_⟩
  · rfl
  · rw [s4]; exact ⟨rfl, rfl, rfl, rfl, rfl, rfl, rfl⟩

end PeerMsg

/-- The code does not have it: the handlers are given any number of messages of somebody who is not a member and does not even say who they are; the connection is in use, nothing has been reported about it,
and nobody has asked to close it. -/
theorem C121_violated_stranger (g : Cfg) (k : Nat) : ∃ s, mrun g minit (stranger k) = some s ∧ s.handed = (List.range k).map (fun m => (m, 0)) ∧ InUse s.net 0 ∧
    s.net.known = [] ∧ s.net.cbs = [] ∧ s.net.unk = [] := by
  obtain ⟨s, h1, _, h3, h4, h5, h6, h7, h8, h9, h10⟩ := stranger_run g k
  exact ⟨s, h1, h3, ⟨by omega, h5, h7, h6⟩, h10, h8, h9⟩

/-- The code does not have it. -/
theorem C121_violated : ¬ C121_statement := by
  intro h
  obtain ⟨s, h1, h2, _, h4, h5, h6, _, h8, _⟩ := stranger_run byCert 0
  have e1 : mrun byCert minit (stranger 0 ++ [.recv 7 0]) = some { s with queue := [(7, 0)] } := by
    refine mrun_append.mpr ⟨s, h1, ?_⟩
    simp only [mrun, mstep, h2]
    rw [if_pos ⟨by omega, h5, h6⟩]; rfl
  have := h byCert _ _ _ 7 0 e1 rfl rfl
  unfold Reported at this
  simp only [h8] at this
  cases this

/-- What a program can do about it, when peers are identified by their certificates: a handler that takes a message only if the connection it came over is the one that get_peer_conn() gives for some member
takes only messages that came over a connection whose other side has shown the certificate of that member. -/
theorem C121_checked_partial (g : Cfg) (hg : g.certMode = true) (l : List MAct) (s : MSt) (h : mrun g minit l = some s) (m c pid : Nat) (hm : (m, c) ∈ s.handed)
    (hc : getPeerConn s.net pid = some c) : member pid (nets l) = true ∧ Shown g s.net c pid ∧ Reported s.net c := by
  have hr := net_run h
  -- messages come over connections that were opened
  have hq : (∀ e ∈ s.queue ++ s.handed, e.2 < s.net.n ∧ Opened s.net e.2) := by
    suffices hh : ∀ (l : List MAct) (r : MSt) (j : List MAct), mrun g minit j = some r → (∀ e ∈ r.queue ++ r.handed, e.2 < r.net.n ∧ Opened r.net e.2) →
        mrun g r l = some s → ∀ e ∈ s.queue ++ s.handed, e.2 < s.net.n ∧ Opened s.net e.2 from hh l minit [] rfl (by simp [minit]) h
    intro l
    induction l with
    | nil => intro r j _ i h; cases h; exact i
    | cons a l ih =>
      intro r j hj i h
      simp only [mrun, Option.bind_eq_some_iff] at h
      obtain ⟨u, hu, h⟩ := h
      refine ih u (j ++ [a]) (mrun_append.mpr ⟨r, hj, by simp [mrun, hu]⟩) ?_ h
      cases a with
      | net a =>
        simp only [mstep, Option.map_eq_some_iff] at hu
        obtain ⟨n, hn, rfl⟩ := hu
        intro e he
        obtain ⟨k1, k2⟩ := i e he
        have lf := life_step hn
        refine ⟨by have := lf.n; simp only; omega, ?_⟩
        unfold Opened at *
        rw [lf.active _ k1, lf.addr _ k1]; exact k2
      | recv m c =>
        simp only [mstep] at hu
        split at hu
        · rename_i hgd
          cases hu
          intro e he
          simp only [List.mem_append, List.mem_singleton] at he
          rcases he with (he | he) | he
          · exact i e (List.mem_append_left _ he)
          · subst he
            refine ⟨hgd.1, ?_⟩
            unfold Opened
            by_cases ha : (r.net.conns c).active = true
            · exact .inl ha
            · refine .inr (fun h0 => ?_)
              have := shut_run g _ _ (net_run hj) c hgd.1 (by simpa using ha) h0
              rw [hgd.2.2] at this; cases this
          · exact i e (List.mem_append_right _ he)
        · cases hu
      | handle =>
        simp only [mstep] at hu
        split at hu
        · cases hu
        · rename_i x es hx
          cases hu
          intro e he
          refine i e ?_
          rw [hx]
          simp only [List.mem_append, List.mem_cons, List.not_mem_nil, or_false] at he ⊢
          rcases he with he | he | he
          · exact .inl (.inr he)
          · exact .inr he
          · exact .inl (.inl he)
  obtain ⟨h1, h2⟩ := hq _ (List.mem_append_right _ hm)
  have k := C119_genuine g hg _ _ hr pid c hc h2
  refine ⟨?_, k.1, k.2.1⟩
  rw [← C58_membership g _ _ hr pid]
  unfold getPeerConn at hc
  cases hf : find s.net pid with
  | none => rw [hf] at hc; cases hc
  | some p => simp [hasPeer, hf]

-- messages of a member, whose connection passes the check, and of a stranger, whose does not
example : (mrun byCert minit ([.net (.addPeer 6), .net (.accept 8 6), .net (.accept 9 4), .net (.established 1 0 0#16), .net (.established 2 0 0#16), .recv 10 2, .net (.ping 1 ⟨8, 1⟩ 4#16),
    .recv 11 1, .recv 12 2, .handle, .handle])).map (fun s => (s.handed ++ s.queue, s.queue.length, getPeerConn s.net 6, s.net.cbs.map (·.1))) = some ([(10, 2), (11, 1), (12, 2)], 1, some 1, [1]) := by decide +kernel
-- over a connection that is not set up, or is terminated, nothing is received
example : (mrun byCert minit [.net (.accept 8 6), .recv 10 0]).isSome = false ∧ (mrun byCert minit [.net (.accept 8 6), .net (.established 0 0 0#16), .net (.lost 0), .recv 10 0]).isSome = false ∧
    (mrun byCert minit [.handle]).isSome = false := by decide +kernel

end Salticidae
