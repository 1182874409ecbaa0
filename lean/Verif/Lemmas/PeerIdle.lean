import Verif.Model.PeerIdle
import Verif.Lemmas.PeerBeat
import Verif.Lemmas.PeerPlain
/-!
C112: the timeout of connections.
-/
namespace Salticidae
namespace PeerNet

/-- A connection that a step has made is not set up (the placeholder of add_peer is terminated). -/
theorem fresh_step {g : Cfg} {s t : St} {a : Act} {c : Nat} (h : step g s a = some t) (h1 : s.n ≤ c) (h2 : c < t.n)
    (h3 : (t.conns c).term = false) : (t.conns c).setUp = false := by
  cases a with
  | addPeer pid =>
    simp only [step, Option.some.injEq] at h; subst h
    unfold addPeer at h2 h3
    split at h2
    · simp only at h2; omega
    · rename_i hf
      rw [if_neg hf] at h3
      simp only at h2 h3
      have : c = s.n := by omega
      rw [this, upd_apply, if_pos rfl] at h3
      simp at h3
  | delPeer pid =>
    simp only [step, Option.some.injEq] at h; subst h
    unfold delPeer at h2
    split at h2
    · simp only at h2; omega
    · simp [setPeer, unlink_n, term?_n, dispTerminate, setConn] at h2; omega
  | setAddr pid v =>
    simp only [step, Option.some.injEq] at h; subst h
    unfold setPeerAddr at h2
    split at h2
    · simp only at h2; omega
    · simp [setPeer] at h2; omega
  | connPeer pid n =>
    simp only [step, Option.some.injEq] at h; subst h
    unfold connPeer at h2
    split at h2
    · simp only at h2; omega
    · simp only at h2
      split at h2
      · simp only at h2; omega
      · split at h2 <;> simp [setPeer, dispTerminate, setConn] at h2 <;> omega
  | accept v cert =>
    simp only [step] at h
    split at h <;> cases h
    simp only at h2
    have : c = s.n := by omega
    rw [this]; simp [upd_apply, newConn]
  | connect v =>
    simp only [step, Option.some.injEq] at h; subst h
    simp only at h2
    have : c = s.n := by omega
    rw [this]; simp [upd_apply, newConn]
  | established d cert draw =>
    simp only [step] at h
    split at h <;> cases h
    rw [setup_n] at h2; simp [setConn] at h2; omega
  | ping d x draw =>
    simp only [step] at h
    split at h <;> cases h
    rw [ping_n] at h2; omega
  | pong d x draw =>
    simp only [step] at h
    split at h <;> cases h
    rw [pong_n] at h2; omega
  | deferred draw =>
    simp only [step] at h
    split at h <;> cases h
    · rw [ping_n] at h2; simp only at h2; omega
    · simp only at h2; omega
  | lost d =>
    simp only [step] at h
    split at h <;> cases h
    simp [setConn] at h2; omega
  | teardown d =>
    simp only [step] at h
    split at h <;> cases h
    rw [teardown_n] at h2; omega
  | retry p =>
    simp only [step] at h
    split at h <;> cases h
    unfold retryTimer at h2 ⊢
    simp only [setPeer, term?_n] at h2 ⊢
    have : c = s.n := by omega
    have hm := (same_term? { s with n := s.n + 1, conns := upd s.conns s.n { newConn (s.peers p).addr 0 true with peer := some p, manual := false } } (s.peers p).outbound).fix c
    rw [hm.setUp]
    simp [this, upd_apply, newConn]
  | pingTimer p =>
    simp only [step] at h
    split at h <;> cases h
    unfold pingTimer at h2
    simp only at h2
    split at h2
    · simp [setPeer] at h2; omega
    · rw [beat_n] at h2; simp [setPeer] at h2; omega
    · simp [setPeer] at h2; omega

/-- A step does not take reports back. -/
theorem cbs_keep {g : Cfg} {s t : St} {a : Act} (h : step g s a = some t) {e : Nat × Bool} (he : e ∈ s.cbs) : e ∈ t.cbs := by
  cases step_eff h with
  | quiet h _ _ => rw [h]; exact he
  | dial _ _ h _ _ _ => rw [h]; exact he
  | add _ _ h _ _ _ => rw [h]; exact he
  | accept _ _ _ _ _ _ _ h _ _ _ _ => rw [h]; exact List.mem_append_left _ he
  | down _ _ _ _ h _ _ _ => rw [h]; exact List.mem_append_left _ he

/-- The connection that a peer sends its heartbeats over has been reported connected, and so has every one that heartbeats went over. -/
structure Told (s : St) : Prop where
  chosen : ∀ p c, (s.peers p).chosen = some c → (c, true) ∈ s.cbs
  sent : ∀ c, c < s.n → (c, true) ∉ s.cbs → pings (s.conns c).out = 0

theorem told_init : Told init := ⟨by simp [init, newPeer], by simp [init]⟩

theorem told_step {g : Cfg} {s t : St} {a : Act} (b : Basic s) (k : Clean s) (hg : g.listenAddr ≠ 0) (i : Told s) (h : step g s a = some t) : Told t := by
  constructor
  · intro p c hc
    have old : (s.peers p).chosen = some c → (c, true) ∈ t.cbs := fun e => cbs_keep h (i.chosen p c e)
    have e := pstep b h p
    generalize t.peers p = y at e hc
    cases e with
    | new pid ha hq => simp [newPeer] at hc
    | nonce d => exact old (by simpa using hc)
    | reject d i o' hst hi => exact old (by simpa using hc)
    | fin d i o' c' hst hcbs =>
      simp only [finished, Option.some.injEq] at hc
      subst hc
      exact hcbs _ h
    | takeover c' x ha hp => exact old (by simpa using hc)
    | backoff c' ha hp => exact old (by simpa using hc)
    | _ => exact old hc
  · intro c hc hn
    obtain ⟨f, f1, f2, f3⟩ := out_step b k h
    by_cases hs : c < s.n
    · rw [f1 c hs]
      have e := (f3 c hs).2 hg
      have h0 := i.sent c hs (fun e => hn (cbs_keep h e))
      rw [if_neg (by intro e; apply hn; rw [e]; simp), if_neg] at e
      · rw [pings_append]; omega
      · intro hb
        have : ∃ p, (s.peers p).chosen = some c := by
          unfold beatOn at hb
          split at hb
          · split at hb
            · split at hb
              · split at hb
                · exact ⟨_, hb⟩
                · cases hb
              · cases hb
            · cases hb
          · split at hb
            · exact ⟨_, hb⟩
            · cases hb
          · cases hb
        obtain ⟨p, hp⟩ := this
        exact hn (cbs_keep h (i.chosen p c hp))
    · rw [f2 c (by omega) hc]; rfl

end PeerNet

namespace PeerIdle
open PeerNet (Basic Clean Life life_step out_step clean_step fresh_step)

/-- What holds in every history. -/
structure Inv (g : Cfg) (s : St) : Prop where
  base : Basic s.net
  clean : Clean s.net
  new : ∀ c, s.net.n ≤ c → s.req c = [] ∧ s.due c = none
  req : ∀ c, c < s.net.n → (s.net.conns c).term = false → ∀ r ∈ s.req c, r ≤ s.now ∧ s.now ≤ r + g.lag
  due : ∀ c, c < s.net.n → (s.net.conns c).term = false → ∀ t, s.due c = some t → t ≤ s.now + g.timeout ∧ s.now ≤ t + g.lag
  armed : ∀ c, c < s.net.n → (s.net.conns c).term = false → (s.net.conns c).setUp = true → s.req c ≠ [] ∨ s.due c ≠ none

theorem inv_init (g : Cfg) : Inv g init :=
  ⟨PeerNet.basic_init, PeerNet.clean_init, fun _ _ => ⟨rfl, rfl⟩, fun _ h => absurd h (by simp [init, PeerNet.init]),
    fun _ h => absurd h (by simp [init, PeerNet.init]), fun _ h => absurd h (by simp [init, PeerNet.init])⟩

/-- Terminated connections stay terminated. -/
theorem term_back {g : PeerNet.Cfg} {s t : PeerNet.St} {a : PeerNet.Act} (h : PeerNet.step g s a = some t) {c : Nat} (hc : c < s.n)
    (ht : (t.conns c).term = false) : (s.conns c).term = false := by
  cases e : (s.conns c).term with
  | false => rfl
  | true => rw [((life_step h).term c hc).mpr (.inl e)] at ht; cases ht

theorem inv_step {g : Cfg} {s t : St} {a : Act} (i : Inv g s) (h : step g s a = some t) : Inv g t := by
  cases a with
  | net a w =>
    simp only [step] at h
    split at h
    rotate_left
    · cases h
    simp only [Option.map_eq_some_iff] at h
    obtain ⟨n, hn, rfl⟩ := h
    have l := life_step hn
    refine ⟨i.base.step hn, clean_step i.base i.clean hn, ?_, ?_, ?_, ?_⟩
    · intro c hc
      have hc' : s.net.n ≤ c := Nat.le_trans l.n hc
      have := i.new c hc'
      refine ⟨?_, this.2⟩
      simp only [this.1, resets, if_neg (Nat.not_lt.mpr hc')]; rfl
    · intro c hc ht r hr
      simp only at hr hc ht
      rcases List.mem_append.mp hr with hr | hr
      · by_cases hs : c < s.net.n
        · exact i.req c hs (term_back hn hs ht) r hr
        · rw [(i.new c (by omega)).1] at hr; cases hr
      · rw [List.mem_replicate] at hr
        rw [hr.2]; exact ⟨Nat.le_refl _, Nat.le_add_right _ _⟩
    · intro c hc ht r hr
      simp only at hr hc ht
      by_cases hs : c < s.net.n
      · exact i.due c hs (term_back hn hs ht) r hr
      · rw [(i.new c (by omega)).2] at hr; cases hr
    · intro c hc ht hu
      simp only at hc ht hu ⊢
      by_cases hs : c < s.net.n
      · cases e : (s.net.conns c).setUp with
        | true =>
          rcases i.armed c hs (term_back hn hs ht) e with h | h
          · exact .inl (by simp [h])
          · exact .inr h
        | false =>
          left
          have : 1 ≤ resets s.net n c := by
            unfold resets; rw [if_pos hs, if_pos (by simp [e, hu])]; omega
          intro hh
          rw [List.append_eq_nil_iff, List.replicate_eq_nil_iff] at hh
          omega
      · rw [fresh_step hn (by omega) hc ht] at hu; cases hu
  | data c =>
    simp only [step] at h
    split at h <;> cases h
    exact ⟨i.base, i.clean, i.new, i.req, i.due, i.armed⟩
  | wait d =>
    simp only [step] at h
    split at h <;> cases h
    rename_i hw
    refine ⟨i.base, i.clean, i.new, fun c hc ht r hr => ?_, fun c hc ht r hr => ?_, i.armed⟩
    · exact ⟨Nat.le_trans (i.req c hc ht r hr).1 (Nat.le_add_right _ _), (hw.1 c hc ht).1 r hr⟩
    · have := (i.due c hc ht r hr).1
      exact ⟨by simp only; omega, (hw.1 c hc ht).2 r hr⟩
  | reset c =>
    simp only [step] at h
    split at h
    · cases h
    · rename_i r rs hr
      cases h
      refine ⟨i.base, i.clean, fun d hd => ?_, fun d hd ht x hx => ?_, fun d hd ht x hx => ?_, fun d hd ht hu => ?_⟩
      · have := i.new d hd
        have : d ≠ c := by intro e; subst e; rw [this.1] at hr; cases hr
        simp only [if_neg this, this, false_and, if_false]
        exact i.new d hd
      · simp only at hx
        split at hx
        · rename_i e; subst e
          exact i.req d hd ht x (by rw [hr]; exact List.mem_cons_of_mem _ hx)
        · exact i.req d hd ht x hx
      · simp only at hx
        split at hx
        · cases hx; exact ⟨Nat.le_refl _, by simp only; omega⟩
        · exact i.due d hd ht x hx
      · simp only
        by_cases e : d = c
        · subst e; right; simp only at ht; simp [ht]
        · simp only [e, false_and, if_false]; exact i.armed d hd ht hu
  | expire c =>
    simp only [step] at h
    split at h
    · cases h
    · rename_i x hx
      split at h
      · rename_i hle
        simp only [Option.map_eq_some_iff] at h
        obtain ⟨n, hn, rfl⟩ := h
        have l := life_step hn
        have hnn : n.n = s.net.n := by
          simp only [PeerNet.step] at hn
          split at hn <;> cases hn
          rfl
        refine ⟨i.base.step hn, clean_step i.base i.clean hn, fun d hd => i.new d (by simp only at hd; omega), ?_, ?_, ?_⟩
        · intro d hd ht r hr
          simp only [hnn] at hd
          exact i.req d hd (term_back hn hd ht) r hr
        · intro d hd ht r hr
          simp only [hnn] at hd
          exact i.due d hd (term_back hn hd ht) r hr
        · intro d hd ht hu
          simp only [hnn] at hd
          refine i.armed d hd (term_back hn hd ht) ?_
          rcases (l.setUp d hd).mp hu with h | ⟨_, _, h⟩
          · exact h
          · cases h
      · cases h

theorem inv_run {g : Cfg} {s t : St} {l : List Act} (i : Inv g s) (h : run g s l = some t) : Inv g t := by
  induction l generalizing s with
  | nil => cases h; exact i
  | cons a l ih =>
    simp only [run, Option.bind_eq_some_iff] at h
    obtain ⟨u, hu, h⟩ := h
    exact ih (inv_step i hu) h

/-- What the connections are in the next state. -/
theorem net_step {g : Cfg} {s t : St} {a : Act} (h : step g s a = some t) :
    (t.net = s.net ∧ s.now ≤ t.now) ∨ (t.now = s.now ∧ ∃ b, PeerNet.step g.net s.net b = some t.net) := by
  cases a with
  | net a w =>
    simp only [step] at h
    split at h
    rotate_left
    · cases h
    simp only [Option.map_eq_some_iff] at h
    obtain ⟨n, hn, rfl⟩ := h
    exact .inr ⟨rfl, a, hn⟩
  | data c => simp only [step] at h; split at h <;> cases h; exact .inl ⟨rfl, Nat.le_refl _⟩
  | wait d => simp only [step] at h; split at h <;> cases h; exact .inl ⟨rfl, Nat.le_add_right _ _⟩
  | reset c => simp only [step] at h; split at h <;> cases h; exact .inl ⟨rfl, Nat.le_refl _⟩
  | expire c =>
    simp only [step] at h
    split at h
    · cases h
    · split at h
      · simp only [Option.map_eq_some_iff] at h
        obtain ⟨n, hn, rfl⟩ := h
        exact .inr ⟨rfl, _, hn⟩
      · cases h

/-- Connections in a later state. -/
structure Later (s t : St) (c : Nat) : Prop where
  n : s.net.n ≤ t.net.n
  now : s.now ≤ t.now
  term : (t.net.conns c).term = false → (s.net.conns c).term = false
  setUp : (s.net.conns c).setUp = true → (t.net.conns c).setUp = true
  beats : beats (s.net.conns c).out ≤ beats (t.net.conns c).out

theorem later_step {g : Cfg} {s t : St} {a : Act} (i : Inv g s) (h : step g s a = some t) (c : Nat) (hc : c < s.net.n) : Later s t c := by
  rcases net_step h with ⟨e, e'⟩ | ⟨e, b, hb⟩
  · exact ⟨by rw [e]; exact Nat.le_refl _, e', by rw [e]; exact id, by rw [e]; exact id, by rw [e]; exact Nat.le_refl _⟩
  · have l := life_step hb
    obtain ⟨f, f1, _, _⟩ := out_step i.base i.clean hb
    refine ⟨l.n, by omega, term_back hb hc, fun h => (l.setUp c hc).mpr (.inl h), ?_⟩
    rw [f1 c hc]; unfold PeerIdle.beats; rw [List.count_append]; omega

theorem later_run {g : Cfg} {s t : St} {l : List Act} (i : Inv g s) (h : run g s l = some t) (c : Nat) (hc : c < s.net.n) : Later s t c := by
  induction l generalizing s with
  | nil => cases h; exact ⟨Nat.le_refl _, Nat.le_refl _, id, id, Nat.le_refl _⟩
  | cons a l ih =>
    simp only [run, Option.bind_eq_some_iff] at h
    obtain ⟨u, hu, h⟩ := h
    have k := later_step i hu c hc
    have k' := ih (inv_step i hu) h (by have := k.n; omega)
    exact ⟨Nat.le_trans k.n k'.n, Nat.le_trans k.now k'.now, fun x => k.term (k'.term x), fun x => k'.setUp (k.setUp x), Nat.le_trans k.beats k'.beats⟩

/-- Without heartbeats a connection is not granted more time. -/
theorem idle_run {g : Cfg} {s t : St} {l : List Act} {c t0 : Nat} (i : Inv g s) (hc : c < s.net.n) (hu : (s.net.conns c).setUp = true)
    (h1 : ∀ r ∈ s.req c, r ≤ t0) (h2 : ∀ x, s.due c = some x → x ≤ t0 + g.lag + g.timeout)
    (h : run g s l = some t) (hb : beats (t.net.conns c).out = beats (s.net.conns c).out) (ht : (t.net.conns c).term = false) :
    t.now ≤ t0 + g.timeout + 2 * g.lag := by
  induction l generalizing s with
  | nil =>
    cases h
    rcases i.armed c hc ht hu with h | h
    · obtain ⟨r, hr⟩ := List.exists_mem_of_ne_nil _ h
      have := h1 r hr
      have := (i.req c hc ht r hr).2
      omega
    · cases e : t.due c with
      | none => exact absurd e h
      | some x =>
        have := h2 x e
        have := (i.due c hc ht x e).2
        omega
  | cons a l ih =>
    simp only [run, Option.bind_eq_some_iff] at h
    obtain ⟨u, hs, h⟩ := h
    have k := later_step i hs c hc
    have hc' : c < u.net.n := by have := k.n; omega
    have k' := later_run (inv_step i hs) h c hc'
    have hb' : beats (u.net.conns c).out = beats (s.net.conns c).out := by have := k.beats; have := k'.beats; omega
    refine ih (inv_step i hs) hc' (k.setUp hu) ?_ ?_ h (by omega)
    · intro r hr
      cases a with
      | net a w =>
        simp only [step] at hs
        split at hs
        rotate_left
        · cases hs
        simp only [Option.map_eq_some_iff] at hs
        obtain ⟨n, hn, rfl⟩ := hs
        have : resets s.net n c = 0 := by
          unfold resets
          simp only at hb'
          rw [if_pos hc, hb', Nat.sub_self, if_neg (by simp [hu])]
        simp only [this, List.replicate_zero, List.append_nil] at hr
        exact h1 r hr
      | data c => simp only [step] at hs; split at hs <;> cases hs; exact h1 r hr
      | wait d => simp only [step] at hs; split at hs <;> cases hs; exact h1 r hr
      | reset d =>
        simp only [step] at hs; split at hs <;> cases hs
        simp only at hr
        split at hr
        · rename_i e e'; subst e'; exact h1 r (by rw [e]; exact List.mem_cons_of_mem _ hr)
        · exact h1 r hr
      | expire d =>
        simp only [step] at hs
        split at hs
        · cases hs
        · split at hs
          · simp only [Option.map_eq_some_iff] at hs
            obtain ⟨n, hn, rfl⟩ := hs
            exact h1 r hr
          · cases hs
    · intro x hx
      cases a with
      | net a w =>
        simp only [step] at hs
        split at hs
        rotate_left
        · cases hs
        simp only [Option.map_eq_some_iff] at hs
        obtain ⟨n, hn, rfl⟩ := hs
        exact h2 x hx
      | data c => simp only [step] at hs; split at hs <;> cases hs; exact h2 x hx
      | wait d => simp only [step] at hs; split at hs <;> cases hs; exact h2 x hx
      | reset d =>
        simp only [step] at hs; split at hs <;> cases hs
        simp only at hx
        split at hx
        · rename_i r rs e e'
          obtain ⟨rfl, e2⟩ := e'
          cases hx
          have := h1 r (by rw [e]; exact List.mem_cons_self)
          have := (i.req c hc e2 r (by rw [e]; exact List.mem_cons_self)).2
          omega
        · exact h2 x hx
      | expire d =>
        simp only [step] at hs
        split at hs
        · cases hs
        · split at hs
          · simp only [Option.map_eq_some_iff] at hs
            obtain ⟨n, hn, rfl⟩ := hs
            exact h2 x hx
          · cases hs

/-- A timer that has been started is not due earlier later on. -/
theorem due_run {g : Cfg} {s t : St} {l : List Act} {c x : Nat} (i : Inv g s) (hc : c < s.net.n) (hx : ∃ y, s.due c = some y ∧ x ≤ y)
    (hle : x ≤ s.now + g.timeout) (h : run g s l = some t) : ∃ y, t.due c = some y ∧ x ≤ y := by
  induction l generalizing s with
  | nil => cases h; exact hx
  | cons a l ih =>
    simp only [run, Option.bind_eq_some_iff] at h
    obtain ⟨u, hs, h⟩ := h
    have k := later_step i hs c hc
    refine ih (inv_step i hs) (by have := k.n; omega) ?_ (by have := k.now; omega) h
    cases a with
    | net a w =>
      simp only [step] at hs
      split at hs
      rotate_left
      · cases hs
      simp only [Option.map_eq_some_iff] at hs
      obtain ⟨n, hn, rfl⟩ := hs
      exact hx
    | data c => simp only [step] at hs; split at hs <;> cases hs; exact hx
    | wait d => simp only [step] at hs; split at hs <;> cases hs; exact hx
    | reset d =>
      simp only [step] at hs; split at hs <;> cases hs
      simp only
      split
      · exact ⟨_, rfl, hle⟩
      · exact hx
    | expire d =>
      simp only [step] at hs
      split at hs
      · cases hs
      · split at hs
        · simp only [Option.map_eq_some_iff] at hs
          obtain ⟨n, hn, rfl⟩ := hs
          exact hx
        · cases hs

/-- No timer runs that was not started. -/
theorem due_none {g : Cfg} {s t : St} {l : List Act} {c : Nat} (hd : s.due c = none) (hl : .reset c ∉ l) (h : run g s l = some t) : t.due c = none := by
  induction l generalizing s with
  | nil => cases h; exact hd
  | cons a l ih =>
    simp only [run, Option.bind_eq_some_iff] at h
    obtain ⟨u, hs, h⟩ := h
    refine ih ?_ (fun e => hl (List.mem_cons_of_mem _ e)) h
    cases a with
    | net a w =>
      simp only [step] at hs
      split at hs
      rotate_left
      · cases hs
      simp only [Option.map_eq_some_iff] at hs
      obtain ⟨n, hn, rfl⟩ := hs
      exact hd
    | data c => simp only [step] at hs; split at hs <;> cases hs; exact hd
    | wait d => simp only [step] at hs; split at hs <;> cases hs; exact hd
    | reset d =>
      simp only [step] at hs; split at hs <;> cases hs
      have : c ≠ d := fun e => hl (by rw [e]; exact List.mem_cons_self)
      simp only [this, false_and, if_false]; exact hd
    | expire d =>
      simp only [step] at hs
      split at hs
      · cases hs
      · split at hs
        · simp only [Option.map_eq_some_iff] at hs
          obtain ⟨n, hn, rfl⟩ := hs
          exact hd
        · cases hs

/-- Connections never reported connected, over which therefore no heartbeats went. -/
theorem told_later {g : Cfg} {s : St} (hg : g.net.listenAddr ≠ 0) {l : List Act} (h : run g init l = some s) : PeerNet.Told s.net := by
  have : ∀ (l : List Act) (u : St), Inv g u → PeerNet.Told u.net → run g u l = some s → PeerNet.Told s.net := by
    intro l
    induction l with
    | nil => intro u _ k h; cases h; exact k
    | cons a l ih =>
      intro u i k h
      simp only [run, Option.bind_eq_some_iff] at h
      obtain ⟨v, hv, h⟩ := h
      refine ih v (inv_step i hv) ?_ h
      rcases net_step hv with ⟨e, _⟩ | ⟨_, b, hb⟩
      · rw [e]; exact k
      · exact PeerNet.told_step i.base i.clean hg k hb
  exact this l init (inv_init g) PeerNet.told_init h

theorem run_append {g : Cfg} {s : St} {l1 l2 : List Act} : run g s (l1 ++ l2) = (run g s l1).bind (fun u => run g u l2) := by
  induction l1 generalizing s with
  | nil => rfl
  | cons a l ih =>
    simp only [List.cons_append, run]
    cases step g s a with
    | none => rfl
    | some u => exact ih

end PeerIdle
end Salticidae
