import Verif.Lemmas.PeerBasic
import Verif.Spec.PeerNet
/-!
Induction over histories of a node, and what a step does to reports, links and the peers' connections.
-/
namespace Salticidae
namespace PeerNet
open Spec.PeerNet

theorem run_append {g : Cfg} {s t : St} {l k : List Act} :
    run g s (l ++ k) = some t ↔ ∃ u, run g s l = some u ∧ run g u k = some t := by
  induction l generalizing s with
  | nil => simp [run]
  | cons a l ih =>
    simp only [List.cons_append, run, Option.bind_eq_some_iff]
    constructor
    · rintro ⟨v, h1, h2⟩
      obtain ⟨u, h3, h4⟩ := ih.mp h2
      exact ⟨u, ⟨v, h1, h3⟩, h4⟩
    · rintro ⟨u, ⟨v, h1, h3⟩, h4⟩
      exact ⟨v, h1, ih.mpr ⟨u, h3, h4⟩⟩

/-- Induction over histories, the last event at the end. -/
theorem run_ind {g : Cfg} {P : List Act → St → Prop} (h0 : P [] init)
    (h1 : ∀ l s a t, run g init l = some s → Basic s → P l s → step g s a = some t → P (l ++ [a]) t) :
    ∀ l s, run g init l = some s → P l s := by
  have key : ∀ n l s, l.length = n → run g init l = some s → P l s := by
    intro n
    induction n with
    | zero =>
      intro l s hl h
      cases l with
      | nil => simp only [run, Option.some.injEq] at h; rw [← h]; exact h0
      | cons a l => simp at hl
    | succ n ih =>
      intro l s hl h
      have hne : l ≠ [] := by intro e; rw [e] at hl; simp at hl
      rw [← List.dropLast_concat_getLast hne] at h ⊢
      obtain ⟨u, hu, hs⟩ := run_append.mp h
      simp only [run, Option.bind_eq_some_iff] at hs
      obtain ⟨v, hv, he⟩ := hs
      injection he with he
      subst he
      exact h1 _ u _ v hu (basic_run basic_init hu) (ih _ _ (by simp [hl]) hu) hv
  intro l s h
  exact key _ l s rfl h

theorem known_step {g : Cfg} {s t : St} {a : Act} (h : step g s a = some t) (ha : ∀ p, a ≠ .addPeer p) (hd : ∀ p, a ≠ .delPeer p) :
    t.known = s.known := by
  have hping : ∀ c h d (s : St), (pingClosure g s c h d).known = s.known := by
    intro c h d s
    cases ping_eff g s c h d with
    | nop e => exact e.known
    | unknown _ _ _ _ e => rw [e]; rfl
    | preempt _ _ _ e => exact e.known
    | reject _ _ _ _ e _ => exact e.known
    | accept _ _ _ _ e => exact e.known
  cases a with
  | addPeer p => exact absurd rfl (ha p)
  | delPeer p => exact absurd rfl (hd p)
  | setAddr pid a =>
    simp only [step, Option.some.injEq] at h; subst h
    unfold setPeerAddr; split <;> rfl
  | connPeer pid n =>
    simp only [step, Option.some.injEq] at h; subst h
    cases dial_eff s pid n with
    | err e h ht => rw [ht]
    | ok p hf ha k => exact k.known
  | accept a c => simp only [step] at h; split at h <;> simp at h; rw [← h]
  | connect a => simp only [step, Option.some.injEq] at h; rw [← h]
  | established c cert draw =>
    simp only [step] at h
    split at h
    · injection h with h
      have k := est_eff g s c cert draw
      rw [h] at k; exact k.known
    · cases h
  | ping c hs draw =>
    simp only [step] at h
    split at h
    · injection h with h; rw [← h]; exact hping _ _ _ _
    · cases h
  | pong c hs draw =>
    simp only [step] at h
    split at h
    · injection h with h; rw [← h]
      cases pong_eff g s c hs draw with
      | nop e => exact e.known
      | reject _ _ _ e _ => exact e.known
      | accept _ _ _ e => exact e.known
      | ub _ _ _ e => obtain ⟨u, k | k, e⟩ := e <;> rw [e] <;> exact k.known
      | wait _ _ _ _ e => exact e.known
      | beat _ _ _ _ _ _ e => exact e.known
      | beatUb _ _ _ _ _ e => obtain ⟨u, k, e⟩ := e; rw [e]; exact k.known
    · cases h
  | deferred draw =>
    simp only [step] at h
    split at h
    · cases h
    · injection h with h; rw [← h]; exact hping _ _ _ _
    · injection h with h; rw [← h]
  | lost c => simp only [step] at h; split at h <;> simp at h; rw [← h]; rfl
  | teardown c =>
    simp only [step] at h
    split at h
    · injection h with h
      have k := (tear_eff s c).1
      rw [h] at k; exact k.known
    · cases h
  | retry p =>
    simp only [step] at h
    split at h
    · injection h with h
      have k := retry_eff s p
      rw [h] at k; exact k.known
    · cases h
  | pingTimer p =>
    simp only [step] at h
    split at h
    · injection h with h
      have k := timer_eff s p
      rw [h] at k
      cases k with
      | wait _ e => exact e.known
      | beat _ _ _ e => exact e.known
      | ub _ e => obtain ⟨u, x, k, e, _⟩ := e; rw [e]; exact k.known
    · cases h

theorem find_of_known {s t : St} (h : t.known = s.known) (pid : Nat) : find t pid = find s pid := by
  unfold find; rw [h]


theorem trace_snoc {g : Cfg} {s u : St} {l : List Act} {a : Act} (h : run g s l = some u) :
    trace g s (l ++ [a]) = trace g s l ++ [(u, a)] := by
  induction l generalizing s with
  | nil =>
    simp only [run, Option.some.injEq] at h
    subst h
    simp only [List.nil_append, trace]
    split <;> rfl
  | cons b l ih =>
    simp only [run, Option.bind_eq_some_iff] at h
    obtain ⟨v, h1, h2⟩ := h
    simp only [List.cons_append, trace, h1, ih h2]

/-- Connections keep their nature, and live as the events say. -/
structure Life (s : St) (a : Act) (t : St) : Prop where
  n : s.n ≤ t.n
  addr : ∀ c, c < s.n → (t.conns c).addr = (s.conns c).addr
  active : ∀ c, c < s.n → (t.conns c).active = (s.conns c).active
  manual : ∀ c, c < s.n → (t.conns c).manual = (s.conns c).manual
  setUp : ∀ c, c < s.n → ((t.conns c).setUp = true ↔ (s.conns c).setUp = true ∨ ∃ cert d, a = .established c cert d)
  term : ∀ c, c < s.n → ((t.conns c).term = true ↔ (s.conns c).term = true ∨ a = .lost c)
  torn : ∀ c, c < s.n → ((t.conns c).torn = true ↔ (s.conns c).torn = true ∨ a = .teardown c)

theorem Life.of_fix {s t : St} {a : Act} (hn : t.n = s.n) (h : ∀ d, d < s.n → Conn.Fix (t.conns d) (s.conns d))
    (h1 : ∀ c x d, a ≠ .established c x d) (h2 : ∀ c, a ≠ .lost c) (h3 : ∀ c, a ≠ .teardown c) : Life s a t := by
  refine ⟨by omega, fun c hc => (h c hc).addr, fun c hc => (h c hc).active, fun c hc => (h c hc).manual, fun c hc => ?_, fun c hc => ?_, fun c hc => ?_⟩
  · rw [(h c hc).setUp]; simp [h1]
  · rw [(h c hc).term]; simp [h2]
  · rw [(h c hc).torn]; simp [h3]

theorem Life.of_new {s t : St} {a : Act} (hn : t.n = s.n + 1) (h : ∀ d, d < s.n → Conn.Fix (t.conns d) (s.conns d))
    (h1 : ∀ c x d, a ≠ .established c x d) (h2 : ∀ c, a ≠ .lost c) (h3 : ∀ c, a ≠ .teardown c) : Life s a t := by
  refine ⟨by omega, fun c hc => (h c hc).addr, fun c hc => (h c hc).active, fun c hc => (h c hc).manual, fun c hc => ?_, fun c hc => ?_, fun c hc => ?_⟩
  · rw [(h c hc).setUp]; simp [h1]
  · rw [(h c hc).term]; simp [h2]
  · rw [(h c hc).torn]; simp [h3]

theorem upd_fix {s : St} {x : Conn} (d : Nat) (h : d < s.n) : Conn.Fix (upd s.conns s.n x d) (s.conns d) := by
  rw [upd_apply, if_neg (by omega)]; exact .refl _

theorem ping_fix (g : Cfg) (s : St) (c : Nat) (h : Hs) (d : BitVec 16) :
    (pingClosure g s c h d).n = s.n ∧ ∀ x, Conn.Fix ((pingClosure g s c h d).conns x) (s.conns x) := by
  cases ping_eff g s c h d with
  | nop e => exact ⟨e.n, e.fix⟩
  | unknown _ _ _ _ e => rw [e]; exact ⟨rfl, (same0_term s c).fix⟩
  | preempt _ _ _ e => exact ⟨e.n, e.fix⟩
  | reject _ _ _ _ e _ => exact ⟨e.n, e.fix⟩
  | accept _ _ _ _ e => exact ⟨e.n, e.fix⟩

theorem life_step {g : Cfg} {s t : St} {a : Act} (h : step g s a = some t) : Life s a t := by
  cases a with
  | addPeer pid =>
    simp only [step, Option.some.injEq] at h; subst h
    unfold addPeer
    split
    · exact .of_fix rfl (fun _ _ => .refl _) (by simp) (by simp) (by simp)
    · exact .of_new rfl upd_fix (by simp) (by simp) (by simp)
  | delPeer pid =>
    simp only [step, Option.some.injEq] at h; subst h
    cases hf : find s pid with
    | none => simp only [delPeer, hf]; exact .of_fix rfl (fun _ _ => .refl _) (by simp) (by simp) (by simp)
    | some p =>
      have k := del_eff s pid p hf
      exact .of_fix k.n (fun d _ => k.fix d) (by simp) (by simp) (by simp)
  | setAddr pid a =>
    simp only [step, Option.some.injEq] at h; subst h
    unfold setPeerAddr; split <;> exact .of_fix rfl (fun _ _ => .refl _) (by simp) (by simp) (by simp)
  | connPeer pid n =>
    simp only [step, Option.some.injEq] at h; subst h
    cases dial_eff s pid n with
    | err e h ht => rw [ht]; exact .of_fix rfl (fun _ _ => .refl _) (by simp) (by simp) (by simp)
    | ok p hf ha k => exact .of_fix k.n (fun d _ => k.fix d) (by simp) (by simp) (by simp)
  | accept a c =>
    simp only [step] at h; split at h <;> simp at h; rw [← h]
    exact .of_new rfl upd_fix (by simp) (by simp) (by simp)
  | connect a =>
    simp only [step, Option.some.injEq] at h; rw [← h]
    exact .of_new rfl upd_fix (by simp) (by simp) (by simp)
  | established c cert draw =>
    simp only [step] at h
    split at h
    · injection h with h
      have k := est_eff g s c cert draw
      rw [h] at k
      refine ⟨by rw [k.n]; omega, fun d hd => ?_, fun d hd => ?_, fun d hd => ?_, fun d hd => ?_, fun d hd => ?_, fun d hd => ?_⟩
      all_goals by_cases e : d = c
      · rw [e]; exact k.addr
      · exact (k.other d e).addr
      · rw [e]; exact k.active
      · exact (k.other d e).active
      · rw [e]; exact k.manual
      · exact (k.other d e).manual
      · subst e; simp [k.setUp]
      · rw [(k.other d e).setUp]; have : ¬ c = d := fun h => e h.symm
        simp [this]
      · rw [e, k.term]; simp
      · rw [(k.other d e).term]; simp
      · rw [e, k.torn]; simp
      · rw [(k.other d e).torn]; simp
    · cases h
  | ping c hs draw =>
    simp only [step] at h
    split at h
    · injection h with h; rw [← h]
      exact .of_fix (ping_fix ..).1 (fun d _ => (ping_fix ..).2 d) (by simp) (by simp) (by simp)
    · cases h
  | pong c hs draw =>
    simp only [step] at h
    split at h
    · injection h with h; rw [← h]
      cases pong_eff g s c hs draw with
      | nop e => exact .of_fix e.n (fun d _ => e.fix d) (by simp) (by simp) (by simp)
      | reject p _ _ e _ => exact .of_fix e.n (fun d _ => e.fix d) (by simp) (by simp) (by simp)
      | accept p hh hn e => exact .of_fix e.n (fun d _ => e.fix d) (by simp) (by simp) (by simp)
      | ub _ _ _ e =>
        obtain ⟨u, k | k, e⟩ := e <;> rw [e] <;> exact .of_fix k.n (fun d _ => k.fix d) (by simp) (by simp) (by simp)
      | wait _ _ _ _ e => exact .of_fix e.n (fun d _ => e.fix d) (by simp) (by simp) (by simp)
      | beat _ _ _ _ _ _ e => exact .of_fix e.n (fun d _ => e.fix d) (by simp) (by simp) (by simp)
      | beatUb _ _ _ _ _ e =>
        obtain ⟨u, k, e⟩ := e; rw [e]
        exact .of_fix k.n (fun d _ => k.fix d) (by simp) (by simp) (by simp)
    · cases h
  | deferred draw =>
    simp only [step] at h
    split at h
    · cases h
    · injection h with h; rw [← h]
      exact .of_fix (ping_fix ..).1 (fun d _ => (ping_fix ..).2 d) (by simp) (by simp) (by simp)
    · injection h with h; rw [← h]
      exact .of_fix rfl (fun _ _ => .refl _) (by simp) (by simp) (by simp)
  | lost c =>
    simp only [step] at h; split at h <;> simp at h; rw [← h]
    refine ⟨Nat.le_refl _, fun d hd => ?_, fun d hd => ?_, fun d hd => ?_, fun d hd => ?_, fun d hd => ?_, fun d hd => ?_⟩ <;>
      simp only [setConn, upd_apply] <;> (by_cases e : d = c)
    all_goals (first | (subst e; simp) | (have : ¬ c = d := fun h => e h.symm; simp [e, this]))
  | teardown c =>
    simp only [step] at h
    split at h
    · injection h with h
      have k := (tear_eff s c).1
      rw [h] at k
      refine ⟨by rw [k.n]; omega, fun d hd => ?_, fun d hd => ?_, fun d hd => ?_, fun d hd => ?_, fun d hd => ?_, fun d hd => ?_⟩ <;>
        simp only [k.conns, upd_apply] <;> (by_cases e : d = c)
      all_goals (first | (subst e; simp) | (have : ¬ c = d := fun h => e h.symm; simp [e, this]))
    · cases h
  | retry p =>
    simp only [step] at h
    split at h
    · injection h with h
      have k := retry_eff s p
      rw [h] at k
      exact .of_new k.n (fun d hd => k.fix d (by omega)) (by simp) (by simp) (by simp)
    · cases h
  | pingTimer p =>
    simp only [step] at h
    split at h
    · injection h with h
      have k := timer_eff s p
      rw [h] at k
      cases k with
      | wait _ e => exact .of_fix e.n (fun d _ => e.fix d) (by simp) (by simp) (by simp)
      | beat _ _ _ e => exact .of_fix e.n (fun d _ => e.fix d) (by simp) (by simp) (by simp)
      | ub _ e =>
        obtain ⟨u, x, k, e, hx⟩ := e; rw [e]
        exact .of_fix k.n (fun d _ => k.fix d) (by simp) (by simp) (by simp)
    · cases h

/-- What a step does to the reports, the links and the connections used by the peers. -/
inductive StepEff (g : Cfg) (s : St) (a : Act) (t : St) : Prop where
  | quiet (hcbs : t.cbs = s.cbs) (hconn : ∀ p, (t.peers p).conn = (s.peers p).conn)
      (hlink : ∀ d q, (t.conns d).peer = some q → (s.conns d).peer = some q)
  | dial (p : Nat) (ha : a = .retry p) (hcbs : t.cbs = s.cbs) (hconn : ∀ p, (t.peers p).conn = (s.peers p).conn)
      (hlink : ∀ d, (t.conns d).peer = if d = s.n then some p else (s.conns d).peer)
      (hnew : (t.conns s.n).active = true)
  | add (pid : Nat) (ha : a = .addPeer pid) (hcbs : t.cbs = s.cbs)
      (hconn : ∀ p, (t.peers p).conn = if p = s.m then s.n else (s.peers p).conn)
      (hlink : ∀ d, (t.conns d).peer = if d = s.n then some s.m else (s.conns d).peer)
      (hnew : (t.conns s.n).addr = 0)
  | accept (p c pid : Nat) (hi : identity g s a = some (pid, c)) (hf : find s pid = some p)
      (hst : (s.peers p).state = .disconnected) (ht : (s.conns c).term = false)
      (hcbs : t.cbs = s.cbs ++ [(c, true)])
      (hconn : ∀ q, (t.peers q).conn = if q = p then c else (s.peers q).conn)
      (hlink : ∀ d q, (t.conns d).peer = some q → d = c ∧ q = p ∨ (s.conns d).peer = some q)
      (hup : (t.peers p).state = .connected) (hl : (t.conns c).peer = some p)
  | down (p c : Nat) (ha : a = .teardown c) (hp : (s.conns c).peer = some p) (hcbs : t.cbs = s.cbs ++ [(c, false)])
      (hconn : ∀ q, (t.peers q).conn = (s.peers q).conn)
      (hlink : ∀ d, (t.conns d).peer = (s.conns d).peer) (hdown : (t.peers p).state = .disconnected)

theorem upd_conn {s : St} {p : Nat} {x : Peer} (h : x.conn = (s.peers p).conn) (q : Nat) :
    (upd s.peers p x q).conn = (s.peers q).conn := by
  simp only [upd_apply]; split
  · rename_i e; rw [e, h]
  · rfl

theorem StepEff.chg {g : Cfg} {s t : St} {a : Act} {p : Nat} {x : Peer} (k : Chg s t p x) (h : x.conn = (s.peers p).conn) :
    StepEff g s a t :=
  .quiet k.cbs (fun q => by rw [k.peers]; exact upd_conn h q) (fun d q h => by rw [← k.link]; exact h)

theorem StepEff.same0 {g : Cfg} {s t : St} {a : Act} (k : Same0 s t) : StepEff g s a t :=
  .quiet k.cbs (fun q => by rw [k.peers]) (fun d q h => by rw [← k.link]; exact h)

theorem StepEff.fin {g : Cfg} {s t : St} {a : Act} {p c pid : Nat} {x : Peer} (k : Fin s t p c x)
    (hi : identity g s a = some (pid, c)) (hf : find s pid = some p)
    (hst : (s.peers p).state = .disconnected) (ht : (s.conns c).term = false) : StepEff g s a t := by
  refine .accept p c pid hi hf hst ht k.cbs (fun q => ?_) (fun d q h => ?_) ?_ ?_
  · rw [k.peers, upd_apply]
    split
    · rfl
    · rfl
  · rw [k.link] at h
    split at h
    · rename_i e; injection h with h; exact .inl ⟨e, h.symm⟩
    · split at h
      · cases h
      · exact .inr h
  · rw [k.peers, upd_self]; rfl
  · rw [k.link, if_pos rfl]

theorem ping_stepEff {g : Cfg} {s s0 : St} {a : Act} {c : Nat} {h : Hs} {d : BitVec 16}
    (hs : s0 = s ∨ ∃ rest, s0 = { s with posted := rest })
    (hi : h.claimed ≠ 0 → (s.conns c).active = false → identity g s a = some (pidOf g (s.conns c) h.claimed, c)) :
    StepEff g s a (pingClosure g s0 c h d) := by
  have hh : s0.cbs = s.cbs ∧ s0.peers = s.peers ∧ s0.conns = s.conns ∧ s0.known = s.known := by
    rcases hs with e | ⟨r, e⟩ <;> rw [e] <;> exact ⟨rfl, rfl, rfl, rfl⟩
  obtain ⟨h1, h2, h3, h4⟩ := hh
  cases ping_eff g s0 c h d with
  | nop e => exact .quiet (by rw [e.cbs, h1]) (fun p => by rw [e.peers, h2]) (fun d q hq => by rw [← h3, ← e.link]; exact hq)
  | unknown _ _ _ _ e =>
    rw [e]
    refine .quiet h1 (fun p => by rw [← h2]; rfl) (fun d q hq => ?_)
    rw [← h3]
    rw [link_term] at hq
    exact hq
  | preempt p hh hs e =>
    exact .quiet (by rw [e.cbs, h1]) (fun q => by rw [e.peers, ← h2]; exact upd_conn (by rfl) q) (fun d q hq => by rw [← h3, ← e.link]; exact hq)
  | reject p hh hs hn e ea =>
    exact .quiet (by rw [e.cbs, h1]) (fun q => by rw [e.peers, ← h2]; exact upd_conn (by simp) q) (fun d q hq => by rw [← h3, ← e.link]; exact hq)
  | accept p hh hst hn e =>
    have hid := hi hh.claimed (by rw [← h3]; exact hh.passive)
    refine .accept p c _ hid (by rw [← hh.found, h3]; exact (find_of_known h4 _).symm) (by rw [← h2]; exact hst)
      (by rw [← h3]; exact hh.term) (by rw [e.cbs, h1]) (fun q => ?_) (fun d q h => ?_) ?_ ?_
    · rw [e.peers, upd_apply, h2]
      split <;> rfl
    · rw [e.link, h3] at h
      split at h
      · rename_i e; injection h with h; exact .inl ⟨e, h.symm⟩
      · split at h
        · cases h
        · exact .inr h
    · rw [e.peers, upd_self]; rfl
    · rw [e.link, if_pos rfl]

theorem step_eff {g : Cfg} {s t : St} {a : Act} (h : step g s a = some t) : StepEff g s a t := by
  cases a with
  | addPeer pid =>
    simp only [step, Option.some.injEq] at h; subst h
    unfold addPeer
    split
    · exact .quiet rfl (fun _ => rfl) (fun _ _ h => h)
    · refine .add pid rfl rfl (fun p => ?_) (fun d => ?_) ?_
      · simp only [upd_apply]; split <;> rfl
      · simp only [upd_apply]; split <;> rfl
      · simp [newConn]
  | delPeer pid =>
    simp only [step, Option.some.injEq] at h; subst h
    cases hf : find s pid with
    | none => simp only [delPeer, hf]; exact .quiet rfl (fun _ => rfl) (fun _ _ h => h)
    | some p =>
      have k := del_eff s pid p hf
      refine .quiet k.cbs (fun q => by rw [k.peers]; exact upd_conn (by rfl) q) (fun d q h => ?_)
      rw [k.link] at h
      split at h
      · cases h
      · exact h
  | setAddr pid a =>
    simp only [step, Option.some.injEq] at h; subst h
    unfold setPeerAddr; split
    · exact .quiet rfl (fun _ => rfl) (fun _ _ h => h)
    · exact .chg (chg_set _ _ _) rfl
  | connPeer pid n =>
    simp only [step, Option.some.injEq] at h; subst h
    cases dial_eff s pid n with
    | err e h ht => rw [ht]; exact .quiet rfl (fun _ => rfl) (fun _ _ h => h)
    | ok p hf ha k => exact .chg k rfl
  | accept a c =>
    simp only [step] at h; split at h <;> simp at h; rw [← h]
    refine .quiet rfl (fun _ => rfl) (fun d q h => ?_)
    simp only [upd_apply] at h
    split at h
    · simp [newConn] at h
    · exact h
  | connect a =>
    simp only [step, Option.some.injEq] at h; rw [← h]
    refine .quiet rfl (fun _ => rfl) (fun d q h => ?_)
    simp only [upd_apply] at h
    split at h
    · simp [newConn] at h
    · exact h
  | established c cert draw =>
    simp only [step] at h
    split at h
    · injection h with h
      have k := est_eff g s c cert draw
      rw [h] at k
      refine .quiet k.cbs (fun q => ?_) (fun d q h => by rw [← k.link]; exact h)
      rcases k.peers with hp | ⟨p, ha, hf, hp⟩ <;> rw [hp]
      exact upd_conn (by simp) q
    · cases h
  | ping c hs draw =>
    simp only [step] at h
    split at h
    · injection h with h; rw [← h]
      exact ping_stepEff (.inl rfl) (fun h1 h2 => by simp [identity, h1, h2])
    · cases h
  | pong c hs draw =>
    simp only [step] at h
    split at h
    · injection h with h; rw [← h]
      cases pong_eff g s c hs draw with
      | nop e => exact .same0 e
      | reject p _ _ e _ => exact .chg e (by simp)
      | accept p hh hn e => exact .fin e (by simp [identity, hh.claimed, hh.active]) hh.found hh.state hh.term
      | ub _ _ _ e =>
        obtain ⟨u, k | k, e⟩ := e <;> rw [e]
        · exact .quiet k.cbs (fun q => by show (u.peers q).conn = _; rw [k.peers]) (fun d q h => by rw [← k.link]; exact h)
        · exact .quiet k.cbs (fun q => by show (u.peers q).conn = _; rw [k.peers]; exact upd_conn (by rfl) q) (fun d q h => by rw [← k.link]; exact h)
      | wait _ _ _ _ e => exact .chg e rfl
      | beat _ _ _ _ _ _ e => exact .chg e rfl
      | beatUb _ _ _ _ _ e =>
        obtain ⟨u, k, e⟩ := e; rw [e]
        exact .quiet k.cbs (fun q => by show (u.peers q).conn = _; rw [k.peers]; exact upd_conn (by rfl) q) (fun d q h => by rw [← k.link]; exact h)
    · cases h
  | deferred draw =>
    simp only [step] at h
    split at h
    · cases h
    · rename_i hs c rest he
      injection h with h; rw [← h]
      exact ping_stepEff (.inr ⟨rest, rfl⟩) (fun h1 h2 => by simp [identity, he, h1, h2])
    · injection h with h; rw [← h]
      exact .quiet rfl (fun _ => rfl) (fun _ _ h => h)
  | lost c =>
    simp only [step] at h; split at h <;> simp at h; rw [← h]
    refine .quiet rfl (fun _ => rfl) (fun d q h => ?_)
    simp only [setConn, upd_apply] at h
    split at h
    · rename_i e; rw [e]; exact h
    · exact h
  | teardown c =>
    simp only [step] at h
    split at h
    · injection h with h
      have k := tear_eff s c
      rw [h] at k
      obtain ⟨k, e⟩ := k
      have hl : ∀ d, (t.conns d).peer = (s.conns d).peer := by
        intro d
        rw [k.conns, upd_apply]
        split
        · rename_i h; rw [h]
        · rfl
      cases e with
      | nobody hp hpeers hposted hcbs hub => exact .quiet hcbs (fun q => by rw [hpeers]) (fun d q h => by rw [← hl]; exact h)
      | ub p hp hm hf hpeers hposted hcbs hub => exact .quiet hcbs (fun q => by rw [hpeers]) (fun d q h => by rw [← hl]; exact h)
      | preempt p hs hp hm hf hh hpeers hposted hcbs hub =>
        exact .down p c rfl hp hcbs (fun q => by rw [hpeers]; exact upd_conn (by simp) q) hl (by rw [hpeers, upd_self]; simp)
      | backoff p hp hm hf hh hpeers hposted hcbs hub =>
        exact .down p c rfl hp hcbs (fun q => by rw [hpeers]; exact upd_conn (by simp) q) hl (by rw [hpeers, upd_self]; simp)
    · cases h
  | retry p =>
    simp only [step] at h
    split at h
    · injection h with h
      have k := retry_eff s p
      rw [h] at k
      exact .dial p rfl k.cbs (fun q => by rw [k.peers]; exact upd_conn (by rfl) q) k.link (by rw [k.newc.active]; rfl)
    · cases h
  | pingTimer p =>
    simp only [step] at h
    split at h
    · injection h with h
      have k := timer_eff s p
      rw [h] at k
      cases k with
      | wait _ e => exact .chg e rfl
      | beat _ _ _ e => exact .chg e rfl
      | ub _ e =>
        obtain ⟨u, x, k, e, hx⟩ := e; rw [e]
        refine .quiet k.cbs (fun q => ?_) (fun d q h => by rw [← k.link]; exact h)
        show (u.peers q).conn = _
        rw [k.peers]; refine upd_conn ?_ q
        rcases hx with hx | hx <;> rw [hx]
    · cases h

end PeerNet
end Salticidae
