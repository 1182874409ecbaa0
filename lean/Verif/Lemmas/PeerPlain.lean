import Verif.Lemmas.PeerName
/-!
C111: connections that the user opens on a PeerNetwork.
-/
namespace Salticidae
namespace PeerNet
open Spec.PeerNet

theorem term?_n (s : St) (o : Option Nat) : (dispTerminate? s o).n = s.n := by cases o <;> rfl
theorem unlink_n (s : St) (o : Option Nat) : (unlink s o).n = s.n := by cases o <;> rfl
theorem beat_n (s : St) (p : Nat) : (resetSendPing s p).n = s.n := by
  unfold resetSendPing; simp only; split <;> rfl
theorem finish_n (s : St) (p c : Nat) : (finishHandshake s p c).n = s.n := by
  simp [finishHandshake, setConn, setPeer, unlink_n, beat_n]
theorem ping_n (g : Cfg) (s : St) (c : Nat) (h : Hs) (d : BitVec 16) : (pingClosure g s c h d).n = s.n := by
  unfold pingClosure
  repeat' split
  all_goals simp [send, dispTerminate, setConn, setPeer, finish_n, term?_n]
  all_goals (split <;> simp [send, dispTerminate, setConn, setPeer, finish_n, term?_n])
  all_goals (split <;> simp [send, dispTerminate, setConn, setPeer, finish_n, term?_n])
theorem pong_n (g : Cfg) (s : St) (c : Nat) (h : Hs) (d : BitVec 16) : (pongClosure g s c h d).n = s.n := by
  unfold pongClosure
  repeat' split
  all_goals simp [send, dispTerminate, setConn, setPeer, finish_n, term?_n, beat_n]
  all_goals (split <;> (try simp [send, dispTerminate, setConn, setPeer, finish_n, term?_n, beat_n]))
  all_goals (split <;> simp [term?_n])
theorem teardown_n (s : St) (c : Nat) : (teardown s c).n = s.n := by
  unfold teardown
  simp only
  repeat' split
  all_goals rfl
theorem setup_n (g : Cfg) (s : St) (c : Nat) (d : BitVec 16) : (setup g s c d).n = s.n := by
  unfold setup
  simp only
  repeat' split
  all_goals rfl

/-- A connection of the user's that a step has made. -/
theorem new_step {g : Cfg} {s t : St} {a : Act} {c : Nat} (h : step g s a = some t) (h1 : s.n ≤ c) (h2 : c < t.n)
    (h3 : (t.conns c).active = true) (h4 : (t.conns c).manual = true) :
    ∃ v, a = .connect v ∧ c = s.n ∧ t.m = s.m ∧ t.peers = s.peers ∧ t.cbs = s.cbs ∧ (t.conns c).peer = none := by
  cases a with
  | addPeer pid =>
    simp only [step, Option.some.injEq] at h; subst h
    unfold addPeer at h2 h3
    split at h2
    · simp only at h2; omega
    · rename_i hf
      rw [if_neg hf] at h3
      simp only at h2 h3
      have : c = s.n := by omega
      rw [this, upd_apply, if_pos rfl] at h3
      simp [newConn] at h3
  | delPeer pid =>
    simp only [step, Option.some.injEq] at h; subst h
    unfold delPeer at h2
    split at h2
    · simp only at h2; omega
    · simp [setPeer, unlink_n, term?_n, dispTerminate, setConn] at h2; omega
  | setAddr pid v =>
    simp only [step, Option.some.injEq] at h; subst h
    unfold setPeerAddr at h2
    split at h2
    · simp only at h2; omega
    · simp [setPeer] at h2; omega
  | connPeer pid n =>
    simp only [step, Option.some.injEq] at h; subst h
    unfold connPeer at h2
    split at h2
    · simp only at h2; omega
    · simp only at h2
      split at h2
      · simp only at h2; omega
      · split at h2 <;> simp [setPeer, dispTerminate, setConn] at h2 <;> omega
  | accept v cert =>
    simp only [step] at h
    split at h <;> cases h
    simp only at h2 h3
    have : c = s.n := by omega
    rw [this, upd_apply, if_pos rfl] at h3
    simp [newConn] at h3
  | connect v =>
    simp only [step, Option.some.injEq] at h; subst h
    simp only at h2
    have : c = s.n := by omega
    exact ⟨v, rfl, this, rfl, rfl, rfl, by rw [this]; simp [upd_apply, newConn]⟩
  | established d cert draw =>
    simp only [step] at h
    split at h <;> cases h
    rw [setup_n] at h2; simp [setConn] at h2; omega
  | ping d x draw =>
    simp only [step] at h
    split at h <;> cases h
    rw [ping_n] at h2; omega
  | pong d x draw =>
    simp only [step] at h
    split at h <;> cases h
    rw [pong_n] at h2; omega
  | deferred draw =>
    simp only [step] at h
    split at h <;> cases h
    · rw [ping_n] at h2; simp only at h2; omega
    · simp only at h2; omega
  | lost d =>
    simp only [step] at h
    split at h <;> cases h
    simp [setConn] at h2; omega
  | teardown d =>
    simp only [step] at h
    split at h <;> cases h
    rw [teardown_n] at h2; omega
  | retry p =>
    simp only [step] at h
    split at h <;> cases h
    unfold retryTimer at h2 h4
    simp only [setPeer, term?_n] at h2 h4
    have : c = s.n := by omega
    have hm := (same_term? { s with n := s.n + 1, conns := upd s.conns s.n { newConn (s.peers p).addr 0 true with peer := some p, manual := false } } (s.peers p).outbound).fix c
    rw [hm.manual] at h4
    simp [this, upd_apply] at h4
  | pingTimer p =>
    simp only [step] at h
    split at h <;> cases h
    unfold pingTimer at h2
    simp only at h2
    split at h2
    · simp [setPeer] at h2; omega
    · rw [beat_n] at h2; simp [setPeer] at h2; omega
    · simp [setPeer] at h2; omega

/-- The connections that the user has opened are not those of peers. -/
def Plain (s : St) : Prop := ∀ c, c < s.n → (s.conns c).active = true → (s.conns c).manual = true →
  (s.conns c).peer = none ∧ (∀ p, p < s.m → (s.peers p).conn ≠ c) ∧ ∀ v, (c, v) ∉ s.cbs

theorem plain_init : Plain init := by intro c h; simp [init] at h

theorem plain_step {g : Cfg} {s t : St} {a : Act} (b : Basic s) (hcl : ∀ e ∈ s.cbs, e.1 < s.n) (i : Plain s)
    (hp : ∀ pid c, identity g s a = some (pid, c) → (s.conns c).active = true → (s.conns c).manual = true → find s pid = none)
    (h : step g s a = some t) : Plain t := by
  intro c hc ha hm
  have l := life_step h
  by_cases hs : c < s.n
  · rw [l.active c hs] at ha
    rw [l.manual c hs] at hm
    obtain ⟨i1, i2, i3⟩ := i c hs ha hm
    refine ⟨?_, ?_, ?_⟩
    · cases link_eff b h with
      | keep _ _ hl => rw [hl c hs]; exact i1
      | add _ _ _ _ hl => rw [hl, if_neg (by omega)]; exact i1
      | fin p c' pid o hi hf _ _ _ _ _ _ hl =>
        rw [hl]
        split
        · rename_i e; subst e; rw [hp _ _ hi ha hm] at hf; cases hf
        · split
          · rfl
          · exact i1
      | del _ _ _ _ _ _ hl =>
        rw [hl]; split
        · rfl
        · exact i1
    · intro p hpm
      cases link_eff b h with
      | keep hmm hpp => rw [(hpp p).1]; exact i2 p (by omega)
      | add pid _ hmm hpp =>
        rw [hpp, upd_apply]; split
        · simp [newPeer]; omega
        · exact i2 p (by omega)
      | fin p' c' pid o hi hf _ _ _ hmm hq hpp =>
        by_cases e : p = p'
        · subst e; rw [hpp.1]; intro e; subst e; rw [hp _ _ hi ha hm] at hf; cases hf
        · rw [hq p e]; exact i2 p (by omega)
      | del _ p' _ _ hmm hpp =>
        rw [hpp, upd_apply]; split
        · rename_i e; subst e; exact i2 p (by omega)
        · exact i2 p (by omega)
    · intro v hv
      cases step_eff h with
      | quiet e => rw [e] at hv; exact i3 v hv
      | dial _ _ e => rw [e] at hv; exact i3 v hv
      | add _ _ e => rw [e] at hv; exact i3 v hv
      | accept p c' pid hi hf _ _ e =>
        rw [e] at hv
        rcases List.mem_append.mp hv with hv | hv
        · exact i3 v hv
        · simp at hv
          have := hv.1; subst this
          rw [hp _ _ hi ha hm] at hf; cases hf
      | down p c' _ hpe e =>
        rw [e] at hv
        rcases List.mem_append.mp hv with hv | hv
        · exact i3 v hv
        · simp at hv
          have := hv.1; subst this
          rw [i1] at hpe; cases hpe
  · obtain ⟨v, _, rfl, e1, e2, e3, e4⟩ := new_step h (by omega) hc ha hm
    refine ⟨e4, fun p hpm => ?_, fun v hv => ?_⟩
    · rw [e2]; have := (b.idx p (by omega)).1; omega
    · rw [e3] at hv; have := hcl _ hv; simp at this

end PeerNet
end Salticidae
