import Verif.Model.PeerHeld
import Verif.Lemmas.PeerBeat
import Verif.Props.PeerLife
/-!
C113: what a PeerNetwork keeps of the connections that are gone.
-/
namespace Salticidae
open PeerNet Spec.PeerNet

/-! ### C113 -/

/-- Of the connections that have been torn down a PeerNetwork holds only those that get_peer_conn() gives. -/
def C113_statement : Prop := ∀ (g : Cfg) (l : List Act) (s : St), run g init l = some s →
  ∀ c, c < s.n → (s.conns c).torn = true → held s c = true → ∃ pid, getPeerConn s pid = some c

/-- Both nodes dial; the handshake over the connection from the peer loses, the connection is closed. -/
def PeerNet.lostRace : List Act := [.addPeer 5, .setAddr 5 5, .connPeer 5 (-1), .accept 50 0, .established 1 0 0#16, .ping 1 ⟨5, 60000⟩ 0#16,
  .lost 1, .teardown 1]

/-- It is still the peer's `inbound_conn`. -/
theorem C113_violated : ¬ C113_statement := by
  intro h
  have e : (run byAddr init lostRace).map (fun s => ((s.n, (s.conns 1).torn, held s 1), s.known, (s.peers 0).conn)) = some ((2, true, true), [(5, 0)], 0) := by
    decide +kernel
  cases hr : run byAddr init lostRace with
  | none => rw [hr] at e; simp at e
  | some s =>
    rw [hr] at e
    simp only [Option.map_some, Option.some.injEq, Prod.mk.injEq] at e
    obtain ⟨pid, hp⟩ := h _ _ s hr 1 (by omega) e.1.2.1 e.1.2.2
    unfold getPeerConn at hp
    rw [Option.map_eq_some_iff] at hp
    obtain ⟨p, hf, hc⟩ := hp
    have := find_mem hf
    rw [e.2.1] at this
    simp only [List.mem_singleton, Prod.mk.injEq] at this
    rw [this.2, e.2.2] at hc
    cases hc

/-- The table of the connections without a handshake has no connection that was torn down. -/
theorem pendLive_run (g : Cfg) (l : List Act) (s : St) (h : run g init l = some s) :
    ∀ e ∈ s.pending, e.2 < s.n ∧ e.1 = (s.conns e.2).addr ∧ (s.conns e.2).torn = false := by
  revert l s
  refine run_ind (by simp [init]) ?_
  intro l s a t _ b ih ht
  have hl := life_step ht
  have old : ∀ e ∈ s.pending, (∀ c, a = .teardown c → e.1 ≠ (s.conns c).addr) →
      e.2 < t.n ∧ e.1 = (t.conns e.2).addr ∧ (t.conns e.2).torn = false := by
    intro e he hn
    obtain ⟨h1, h2, h3⟩ := ih e he
    refine ⟨by have := hl.n; omega, by rw [hl.addr _ h1]; exact h2, ?_⟩
    rw [← Bool.not_eq_true, hl.torn _ h1]
    rintro (h | h)
    · rw [h3] at h; cases h
    · exact hn _ h h2
  intro e he
  cases pend_eff b ht with
  | keep hp h1 h2 => rw [hp] at he; exact old e he (fun c h => absurd h (h2 c))
  | accept c hp hc h1 h2 =>
    rw [hp, List.mem_filter] at he
    exact old e he.1 (fun c h => absurd h (h2 c))
  | tear c ha hc hp =>
    rw [hp, List.mem_filter] at he
    refine old e he.1 (fun d h => ?_)
    rw [ha] at h; injection h with h; rw [← h]
    simpa using he.2
  | est c x d ha hc hs htn hp hcbs =>
    rcases hp with ⟨hp, _⟩ | ⟨_, hp⟩
    · rw [hp] at he; exact old e he (fun c h => by rw [ha] at h; cases h)
    · rw [hp, List.mem_append] at he
      rcases he with he | he
      · exact old e (List.mem_filter.mp he).1 (fun c h => by rw [ha] at h; cases h)
      · rw [List.mem_singleton] at he
        subst he
        refine ⟨by have := hl.n; simp only; omega, by rw [hl.addr _ hc], ?_⟩
        rw [← Bool.not_eq_true, hl.torn _ hc, htn, ha]
        simp

/-- The connection that heartbeats go over is the peer's. -/
theorem chosen_run (g : Cfg) (l : List Act) (s : St) (h : run g init l = some s) : ∀ p c, (s.peers p).chosen = some c → (s.peers p).conn = c := by
  revert l s
  refine run_ind (by simp [init, newPeer]) ?_
  intro l s a t _ b ih ht p c hc
  have e := pstep b ht p
  have old := ih p c
  generalize t.peers p = y at e hc ⊢
  cases e with
  | new pid ha hq => simp [newPeer] at hc
  | nonce d => simpa using old (by simpa using hc)
  | reject d i o' hst hi => simpa using old (by simpa using hc)
  | fin d i o' c' hst hcbs => simpa [finished] using hc
  | takeover c' x ha hp => simpa using old (by simpa using hc)
  | backoff c' ha hp => simpa using old (by simpa using hc)
  | _ => exact old hc

/-- What holds: the connections that are gone and still held are three for each peer at most — the one that get_peer_conn() gives, one of a failed handshake
from the peer and one to it — and one for each handshake that was put off; no matter how many connections there have been.  Missing: that the two of failed
handshakes are let go of. -/
theorem C113_held_partial (g : Cfg) (l : List Act) (s : St) (h : run g init l = some s) :
    ((List.range s.n).filter (fun c => (s.conns c).torn && held s c)).length ≤ 3 * s.known.length + s.posted.length := by
  have hp := pendLive_run g l s h
  have hch := chosen_run g l s h
  let L : List Nat := s.known.flatMap (fun e => (s.peers e.2).conn :: ((s.peers e.2).inbound.toList ++ (s.peers e.2).outbound.toList)) ++ s.posted.filterMap (·.2)
  have h1 : ((List.range s.n).filter (fun c => (s.conns c).torn && held s c)).length ≤ L.length := by
    refine nodup_len (List.Nodup.sublist List.filter_sublist List.nodup_range) (fun c hc => ?_)
    rw [List.mem_filter, List.mem_range, Bool.and_eq_true] at hc
    obtain ⟨_, h2, h3⟩ := hc
    unfold held at h3
    rw [Bool.or_eq_true, Bool.or_eq_true, List.any_eq_true, List.any_eq_true, List.any_eq_true] at h3
    refine List.mem_append.mpr ?_
    rcases h3 with (⟨e, he, h3⟩ | ⟨e, he, h3⟩) | ⟨e, he, h3⟩
    · left
      refine List.mem_flatMap.mpr ⟨e, he, ?_⟩
      simp only [Peer.holds, Bool.or_eq_true, decide_eq_true_eq] at h3
      simp only [List.mem_cons, List.mem_append, Option.mem_toList]
      rcases h3 with ((h3 | h3) | h3) | h3
      · exact .inl h3.symm
      · exact .inl (hch _ _ h3).symm
      · exact .inr (.inl h3)
      · exact .inr (.inr h3)
    · rw [decide_eq_true_eq] at h3
      have := (hp e he).2.2
      rw [h3, h2] at this; cases this
    · right
      rw [decide_eq_true_eq] at h3
      exact List.mem_filterMap.mpr ⟨e, he, h3⟩
  refine Nat.le_trans h1 ?_
  simp only [L, List.length_append]
  refine Nat.add_le_add ?_ (List.length_filterMap_le _ _)
  generalize s.known = k
  induction k with
  | nil => simp
  | cons e k ih =>
    simp only [List.flatMap_cons, List.length_append, List.length_cons]
    have h0 : ∀ o : Option Nat, o.toList.length ≤ 1 := by intro o; cases o <;> simp
    have := h0 (s.peers e.2).outbound
    have := h0 (s.peers e.2).inbound
    omega

/-- In particular a network without peers holds no connection that is gone, once the handshakes that were put off have been dealt with. -/
theorem C113_empty_partial (g : Cfg) (l : List Act) (s : St) (h : run g init l = some s) (hk : ∀ pid, hasPeer s pid = false) (hq : s.posted = [])
    (c : Nat) (hc : c < s.n) (ht : (s.conns c).torn = true) : held s c = false := by
  have hk' : s.known = [] := by
    cases e : s.known with
    | nil => rfl
    | cons x k =>
      have b := basic_run basic_init h
      have h1 := b.known x (by rw [e]; exact List.mem_cons_self)
      have h2 := b.find_iff.mpr ⟨h1.1, h1.2.1, h1.2.2⟩
      have := hk x.1
      simp [hasPeer, h2] at this
  have hl := C113_held_partial g l s h
  rw [hk', hq] at hl
  cases e : held s c with
  | false => rfl
  | true =>
    have : c ∈ (List.range s.n).filter (fun c => (s.conns c).torn && held s c) := by
      rw [List.mem_filter, List.mem_range]; exact ⟨hc, by rw [ht, e]; rfl⟩
    have := List.length_pos_of_mem this
    simp only [List.length_nil] at hl
    omega

/-- All three kinds, for one peer: the placeholder, a lost race and a lost dial; two earlier dials are not held any more. -/
example : (run byAddr init [.addPeer 5, .setAddr 5 5, .connPeer 5 (-1), .retry 0, .lost 1, .teardown 1, .retry 0, .lost 2, .teardown 2,
      .retry 0, .lost 3, .teardown 3, .accept 50 0, .established 4 0 0#16, .ping 4 ⟨5, 60000⟩ 0#16, .lost 4, .teardown 4]).map
    (fun s => (s.n, (List.range s.n).filter (fun c => (s.conns c).torn && held s c), 3 * s.known.length + s.posted.length)) =
    some (5, [0, 3, 4], 3) := by decide +kernel
example : (run byAddr init (lostRace ++ [.delPeer 5])).map (fun s => (s.known, s.posted, (List.range s.n).map (fun c => ((s.conns c).torn, held s c)))) =
    some ([], [], [(true, false), (true, false)]) := by decide +kernel

end Salticidae
