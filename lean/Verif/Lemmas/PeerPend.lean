import Verif.Lemmas.PeerHist
/-!
The table of pending connections.
-/
namespace Salticidae
namespace PeerNet
open Spec.PeerNet

theorem nodup_len {a b : List Nat} (h : a.Nodup) (hs : ∀ x ∈ a, x ∈ b) : a.length ≤ b.length := by
  induction a generalizing b with
  | nil => simp
  | cons x a ih =>
    rw [List.nodup_cons] at h
    have hx := hs x List.mem_cons_self
    have := ih h.2 (b := b.erase x) (fun y hy => by
      refine (List.mem_erase_of_ne ?_).mpr (hs y (List.mem_cons_of_mem _ hy))
      intro e; subst e; exact h.1 hy)
    rw [List.length_erase_of_mem hx] at this
    have : 0 < b.length := List.length_pos_of_mem hx
    simp only [List.length_cons]
    omega

/-- What a step does to the table of pending connections. -/
inductive PendEff (s : St) (a : Act) (t : St) : Prop where
  | keep (h : t.pending = s.pending) (h1 : ∀ c x d, a ≠ .established c x d) (h2 : ∀ c, a ≠ .teardown c)
      (hcbs : ∀ c, (c, true) ∈ t.cbs ↔ (c, true) ∈ s.cbs)
  | accept (c : Nat) (h : t.pending = s.pending.filter (fun e => e.1 ≠ (s.conns c).addr)) (hc : c < s.n)
      (h1 : ∀ c x d, a ≠ .established c x d) (h2 : ∀ c, a ≠ .teardown c)
      (hcbs : ∀ d, (d, true) ∈ t.cbs ↔ d = c ∨ (d, true) ∈ s.cbs)
  | tear (c : Nat) (ha : a = .teardown c) (hc : c < s.n) (h : t.pending = s.pending.filter (fun e => e.1 ≠ (s.conns c).addr))
      (hcbs : ∀ d, (d, true) ∈ t.cbs ↔ (d, true) ∈ s.cbs)
  | est (c x : Nat) (d : BitVec 16) (ha : a = .established c x d) (hc : c < s.n) (hs : (s.conns c).setUp = false) (htorn : (s.conns c).torn = false)
      (h : t.pending = s.pending ∧ ((s.conns c).active = true ∨ ∃ e ∈ s.pending, e.1 = (s.conns c).addr ∧ e.2 = c) ∨
        (s.conns c).active = false ∧ t.pending = s.pending.filter (fun e => e.1 ≠ (s.conns c).addr) ++ [((s.conns c).addr, c)])
      (hcbs : ∀ d, (d, true) ∈ t.cbs ↔ (d, true) ∈ s.cbs)

theorem ping_pend (g : Cfg) (s : St) (c : Nat) (h : Hs) (d : BitVec 16) :
    ((pingClosure g s c h d).pending = s.pending ∧ (pingClosure g s c h d).cbs = s.cbs) ∨
    ((pingClosure g s c h d).pending = s.pending.filter (fun e => e.1 ≠ (s.conns c).addr) ∧
     (pingClosure g s c h d).cbs = s.cbs ++ [(c, true)]) := by
  cases ping_eff g s c h d with
  | nop e => exact .inl ⟨e.pending, e.cbs⟩
  | unknown _ _ _ _ e => rw [e]; exact .inl ⟨rfl, rfl⟩
  | preempt _ _ _ e => exact .inl ⟨e.pending, e.cbs⟩
  | reject _ _ _ _ e _ => exact .inl ⟨e.pending, e.cbs⟩
  | accept _ _ _ _ e => exact .inr ⟨e.pending, e.cbs⟩

theorem pend_eff {g : Cfg} {s t : St} {a : Act} (b : Basic s) (h : step g s a = some t) : PendEff s a t := by
  cases a with
  | addPeer pid =>
    simp only [step, Option.some.injEq] at h; subst h
    unfold addPeer
    split <;> exact .keep rfl (by simp) (by simp) (fun _ => Iff.rfl)
  | delPeer pid =>
    simp only [step, Option.some.injEq] at h; subst h
    cases hf : find s pid with
    | none => simp only [delPeer, hf]; exact .keep rfl (by simp) (by simp) (fun _ => Iff.rfl)
    | some p =>
      have k := del_eff s pid p hf
      exact .keep k.pending (by simp) (by simp) (fun _ => by rw [k.cbs])
  | setAddr pid a =>
    simp only [step, Option.some.injEq] at h; subst h
    unfold setPeerAddr; split <;> exact .keep rfl (by simp) (by simp) (fun _ => Iff.rfl)
  | connPeer pid n =>
    simp only [step, Option.some.injEq] at h; subst h
    cases dial_eff s pid n with
    | err e h ht => rw [ht]; exact .keep rfl (by simp) (by simp) (fun _ => Iff.rfl)
    | ok p hf ha k => exact .keep k.pending (by simp) (by simp) (fun _ => by rw [k.cbs])
  | accept a c =>
    simp only [step] at h; split at h <;> simp at h; rw [← h]
    exact .keep rfl (by simp) (by simp) (fun _ => Iff.rfl)
  | connect a =>
    simp only [step, Option.some.injEq] at h; rw [← h]
    exact .keep rfl (by simp) (by simp) (fun _ => Iff.rfl)
  | established c cert draw =>
    simp only [step] at h
    split at h
    · rename_i hc
      injection h with h
      have k := est_eff g s c cert draw
      rw [h] at k
      exact .est c cert draw rfl hc.1 hc.2.1 hc.2.2 k.pending (fun _ => by rw [k.cbs])
    · cases h
  | ping c hs draw =>
    simp only [step] at h
    split at h
    · rename_i hc
      injection h with h; rw [← h]
      rcases ping_pend g s c hs draw with k | k
      · exact .keep k.1 (by simp) (by simp) (fun _ => by rw [k.2])
      · exact .accept c k.1 hc.1 (by simp) (by simp) (fun d => by rw [k.2]; simp [or_comm])
    · cases h
  | pong c hs draw =>
    simp only [step] at h
    split at h
    · rename_i hc
      injection h with h; rw [← h]
      cases pong_eff g s c hs draw with
      | nop e => exact .keep e.pending (by simp) (by simp) (fun _ => by rw [e.cbs])
      | reject p _ _ e _ => exact .keep e.pending (by simp) (by simp) (fun _ => by rw [e.cbs])
      | accept p hh hn e => exact .accept c e.pending hc.1 (by simp) (by simp) (fun d => by rw [e.cbs]; simp [or_comm])
      | ub _ _ _ e =>
        obtain ⟨u, k | k, e⟩ := e <;> rw [e] <;> exact .keep k.pending (by simp) (by simp) (fun _ => by show _ ∈ u.cbs ↔ _; rw [k.cbs])
      | wait _ _ _ _ e => exact .keep e.pending (by simp) (by simp) (fun _ => by rw [e.cbs])
      | beat _ _ _ _ _ _ e => exact .keep e.pending (by simp) (by simp) (fun _ => by rw [e.cbs])
      | beatUb _ _ _ _ _ e =>
        obtain ⟨u, k, e⟩ := e; rw [e]
        exact .keep k.pending (by simp) (by simp) (fun _ => by show _ ∈ u.cbs ↔ _; rw [k.cbs])
    · cases h
  | deferred draw =>
    simp only [step] at h
    split at h
    · cases h
    · rename_i hs c rest he
      injection h with h; rw [← h]
      have hc : c < s.n := b.posted _ (by rw [he]; exact List.mem_cons_self) c rfl
      rcases ping_pend g { s with posted := rest } c hs draw with k | k
      · exact .keep k.1 (by simp) (by simp) (fun _ => by rw [k.2])
      · exact .accept c k.1 hc (by simp) (by simp) (fun d => by rw [k.2]; simp [or_comm])
    · injection h with h; rw [← h]
      exact .keep rfl (by simp) (by simp) (fun _ => Iff.rfl)
  | lost c =>
    simp only [step] at h; split at h <;> simp at h; rw [← h]
    exact .keep rfl (by simp) (by simp) (fun _ => Iff.rfl)
  | teardown c =>
    simp only [step] at h
    split at h
    · rename_i hc
      injection h with h
      have k := tear_eff s c
      rw [h] at k
      obtain ⟨k, e⟩ := k
      refine .tear c rfl hc.1 k.pending (fun d => ?_)
      cases e with
      | nobody hp hpeers hposted hcbs hub => rw [hcbs]
      | ub p hp hm hf hpeers hposted hcbs hub => rw [hcbs]
      | preempt p hs hp hm hf hh hpeers hposted hcbs hub => rw [hcbs]; simp
      | backoff p hp hm hf hh hpeers hposted hcbs hub => rw [hcbs]; simp
    · cases h
  | retry p =>
    simp only [step] at h
    split at h
    · injection h with h
      have k := retry_eff s p
      rw [h] at k
      exact .keep k.pending (by simp) (by simp) (fun _ => by rw [k.cbs])
    · cases h
  | pingTimer p =>
    simp only [step] at h
    split at h
    · injection h with h
      have k := timer_eff s p
      rw [h] at k
      cases k with
      | wait _ e => exact .keep e.pending (by simp) (by simp) (fun _ => by rw [e.cbs])
      | beat _ _ _ e => exact .keep e.pending (by simp) (by simp) (fun _ => by rw [e.cbs])
      | ub _ e =>
        obtain ⟨u, x, k, e, hx⟩ := e; rw [e]
        exact .keep k.pending (by simp) (by simp) (fun _ => by show _ ∈ u.cbs ↔ _; rw [k.cbs])
    · cases h

/-- What new connections look like. -/
theorem new_conn {g : Cfg} {s t : St} {a : Act} (h : step g s a = some t) (c : Nat) (hc : c < t.n) (hc' : ¬ c < s.n) :
    ((t.conns c).setUp = false ∧ ((t.conns c).active = false → (t.conns c).addr ≠ 0) ∧ (t.conns c).torn = false ∧ (t.conns c).term = false) ∨
    ((t.conns c).torn = true ∧ (t.conns c).term = true) := by
  have old : t.n = s.n → False := by intro h; omega
  cases a with
  | addPeer pid =>
    simp only [step, Option.some.injEq] at h; subst h
    unfold addPeer at *
    split
    · rename_i hq; rw [if_pos hq] at hc; exact absurd hc hc'
    · rename_i hq; rw [if_neg hq] at hc; simp only at hc
      have : c = s.n := by omega
      subst this; right; simp
  | delPeer pid =>
    simp only [step, Option.some.injEq] at h; subst h
    cases hf : find s pid with
    | none => exact (old (by simp [delPeer, hf])).elim
    | some p => exact (old (del_eff s pid p hf).n).elim
  | setAddr pid a =>
    simp only [step, Option.some.injEq] at h; subst h
    exact (old (by unfold setPeerAddr; split <;> rfl)).elim
  | connPeer pid n =>
    simp only [step, Option.some.injEq] at h; subst h
    cases dial_eff s pid n with
    | err e h ht => exact (old (by rw [ht])).elim
    | ok p hf ha k => exact (old k.n).elim
  | accept a cert =>
    simp only [step] at h; split at h <;> simp at h; subst h
    simp only at hc
    have : c = s.n := by omega
    subst this; left; rename_i ha; simp [newConn, ha]
  | connect a =>
    simp only [step, Option.some.injEq] at h; subst h
    simp only at hc
    have : c = s.n := by omega
    subst this; left; simp [newConn]
  | established c cert draw =>
    simp only [step] at h
    split at h
    · injection h with h
      have k := est_eff g s c cert draw
      rw [h] at k; exact (old k.n).elim
    · cases h
  | ping c hs draw =>
    simp only [step] at h
    split at h
    · injection h with h
      exact (old (by rw [← h]; exact (ping_fix ..).1)).elim
    · cases h
  | pong c hs draw =>
    simp only [step] at h
    split at h
    · injection h with h; rw [← h] at old
      cases pong_eff g s c hs draw with
      | nop e => exact (old e.n).elim
      | reject p _ _ e _ => exact (old e.n).elim
      | accept p hh hn e => exact (old e.n).elim
      | ub _ _ _ e => obtain ⟨u, k | k, e⟩ := e <;> rw [e] at old <;> exact (old k.n).elim
      | wait _ _ _ _ e => exact (old e.n).elim
      | beat _ _ _ _ _ _ e => exact (old e.n).elim
      | beatUb _ _ _ _ _ e => obtain ⟨u, k, e⟩ := e; rw [e] at old; exact (old k.n).elim
    · cases h
  | deferred draw =>
    simp only [step] at h
    split at h
    · cases h
    · injection h with h
      exact (old (by rw [← h]; exact (ping_fix ..).1)).elim
    · injection h with h; exact (old (by rw [← h])).elim
  | lost c => simp only [step] at h; split at h <;> simp at h; exact (old (by rw [← h]; rfl)).elim
  | teardown c =>
    simp only [step] at h
    split at h
    · injection h with h
      have k := (tear_eff s c).1
      rw [h] at k; exact (old k.n).elim
    · cases h
  | retry p =>
    simp only [step] at h
    split at h
    · injection h with h
      have k := retry_eff s p
      rw [h] at k
      rw [k.n] at hc
      have : c = s.n := by omega
      subst this; left
      rw [k.newc.setUp, k.newc.active, k.newc.addr, k.newc.torn, k.newc.term]; simp [newConn]
    · cases h
  | pingTimer p =>
    simp only [step] at h
    split at h
    · injection h with h
      have k := timer_eff s p
      rw [h] at k
      cases k with
      | wait _ e => exact (old e.n).elim
      | beat _ _ _ e => exact (old e.n).elim
      | ub _ e => obtain ⟨u, x, k, e, _⟩ := e; rw [e] at old; exact (old k.n).elim
    · cases h

/-- The table holds exactly the waiting connections. -/
structure Pend (s : St) : Prop where
  nodup : (s.pending.map (·.2)).Nodup
  mem : ∀ e, e ∈ s.pending ↔ e.2 < s.n ∧ Waiting s e.2 = true ∧ e.1 = (s.conns e.2).addr

/-- A connection with the null address is a placeholder. -/
def Placeholders (s : St) : Prop := ∀ c, c < s.n → (s.conns c).active = false → (s.conns c).addr = 0 → (s.conns c).torn = true

theorem placeholders_step {g : Cfg} {s t : St} {a : Act} (i : Placeholders s) (h : step g s a = some t) : Placeholders t := by
  intro c hc ha hd
  have hl := life_step h
  by_cases hc' : c < s.n
  · rw [hl.active c hc'] at ha
    rw [hl.addr c hc'] at hd
    exact (hl.torn c hc').mpr (.inl (i c hc' ha hd))
  · rcases new_conn h c hc hc' with k | k
    · exact absurd hd (k.2.1 ha)
    · exact k.1

theorem waiting_iff (s : St) (c : Nat) : Waiting s c = true ↔ (s.conns c).active = false ∧ (s.conns c).setUp = true ∧
    (s.conns c).torn = false ∧ (c, true) ∉ s.cbs := by
  simp [Waiting, and_assoc]

/-- `c` exists and is set up. -/
def Up (s : St) (c : Nat) : Prop := c < s.n ∧ (s.conns c).setUp = true

theorem Up.of_fix {s t : St} (hn : t.n = s.n) (h : ∀ d, Conn.Fix (t.conns d) (s.conns d)) (c : Nat) (hc : Up s c) : Up t c :=
  ⟨by rw [hn]; exact hc.1, by rw [(h c).setUp]; exact hc.2⟩
theorem Up.of_life {s t : St} {a : Act} (l : Life s a t) (c : Nat) (hc : Up s c) : Up t c :=
  ⟨by have := l.n; have := hc.1; omega, (l.setUp c hc.1).mpr (.inl hc.2)⟩

/-- Only connections that are set up take part in handshakes. -/
structure UpInv (s : St) : Prop where
  cbs : ∀ c, (c, true) ∈ s.cbs → Up s c
  inbound : ∀ p c, (s.peers p).inbound = some c → Up s c
  posted : ∀ e ∈ s.posted, ∀ c, e.2 = some c → Up s c

theorem upInv_init : UpInv init := ⟨by simp [init], by simp [init, newPeer], by simp [init]⟩

theorem UpInv.mk' {s t : St} (u : UpInv s) (hs : ∀ c, Up s c → Up t c)
    (h1 : ∀ c, (c, true) ∈ t.cbs → (c, true) ∈ s.cbs ∨ Up s c)
    (h2 : ∀ p c, (t.peers p).inbound = some c → (s.peers p).inbound = some c ∨ Up s c)
    (h3 : ∀ e ∈ t.posted, e ∈ s.posted ∨ ∀ c, e.2 = some c → Up s c) : UpInv t := by
  refine ⟨fun c hc => ?_, fun p c hc => ?_, fun e he c hc => ?_⟩
  · rcases h1 c hc with h | h
    · exact hs c (u.cbs c h)
    · exact hs c h
  · rcases h2 p c hc with h | h
    · exact hs c (u.inbound p c h)
    · exact hs c h
  · rcases h3 e he with h | h
    · exact hs c (u.posted e h c hc)
    · exact hs c (h c hc)

theorem upd_inbound {s : St} {p : Nat} {x : Peer} (h : ∀ c, x.inbound = some c → (s.peers p).inbound = some c ∨ Up s c)
    (q c : Nat) (hq : (upd s.peers p x q).inbound = some c) : (s.peers q).inbound = some c ∨ Up s c := by
  rw [upd_apply] at hq
  split at hq
  · rename_i e; rw [e]; exact h c hq
  · exact .inl hq

theorem UpInv.chg {s t : St} {p : Nat} {x : Peer} (u : UpInv s) (k : Chg s t p x)
    (h : ∀ c, x.inbound = some c → (s.peers p).inbound = some c ∨ Up s c) : UpInv t :=
  u.mk' (Up.of_fix k.n k.fix) (fun c hc => by rw [k.cbs] at hc; exact .inl hc)
    (fun q c hq => by rw [k.peers] at hq; exact upd_inbound h q c hq) (fun e he => by rw [k.posted] at he; exact .inl he)

theorem UpInv.fin {s t : St} {p c : Nat} {x : Peer} (u : UpInv s) (k : Fin s t p c x) (hc : Up s c) : UpInv t :=
  u.mk' (Up.of_fix k.n k.fix)
    (fun d hd => by
      rw [k.cbs] at hd
      simp only [List.mem_append, List.mem_singleton, Prod.mk.injEq, and_true] at hd
      rcases hd with h | h
      · exact .inl h
      · rw [h]; exact .inr hc)
    (fun q c hq => by rw [k.peers] at hq; exact upd_inbound (by simp [finished]) q c hq) (fun e he => by rw [k.posted] at he; exact .inl he)

theorem UpInv.quiet {s t : St} (u : UpInv s) (hs : ∀ c, Up s c → Up t c)
    (h1 : t.cbs = s.cbs) (h2 : t.peers = s.peers) (h3 : t.posted = s.posted) : UpInv t :=
  u.mk' hs (fun c hc => by rw [h1] at hc; exact .inl hc) (fun p c hc => by rw [h2] at hc; exact .inl hc) (fun e he => by rw [h3] at he; exact .inl he)

theorem UpInv.ping {g : Cfg} {s : St} (u : UpInv s) {c : Nat} (hc : Up s c) (h : Hs) (d : BitVec 16) :
    UpInv (pingClosure g s c h d) := by
  cases ping_eff g s c h d with
  | nop e => exact u.quiet (Up.of_fix e.n e.fix) e.cbs e.peers e.posted
  | unknown _ _ _ _ e =>
    rw [e]
    have k := same0_term { s with unk := s.unk ++ [(h.claimed, c)] } c
    exact u.quiet (Up.of_fix k.n k.fix) rfl rfl rfl
  | preempt p _ _ e => exact u.chg e (fun d hd => by simp only at hd; injection hd with hd; rw [← hd]; exact .inr hc)
  | reject p _ _ _ e _ => exact u.chg e (fun d hd => by simp only at hd; injection hd with hd; rw [← hd]; exact .inr hc)
  | accept p _ _ _ e => exact u.fin e hc

theorem upInv_step {g : Cfg} {s t : St} {a : Act} (b : Basic s) (u : UpInv s) (h : step g s a = some t) : UpInv t := by
  have hl := life_step h
  have hs := fun c => Up.of_life hl c
  cases a with
  | addPeer pid =>
    simp only [step, Option.some.injEq] at h; subst h
    unfold addPeer
    split
    · exact u.quiet (fun _ h => h) rfl rfl rfl
    · refine u.mk' (fun c hc => ?_) (fun _ h => .inl h) (fun p c hp => ?_) (fun _ h => .inl h)
      · have := hc.1
        exact ⟨by simp only; omega, by simp only [upd_apply]; rw [if_neg (by omega)]; exact hc.2⟩
      · simp only [upd_apply] at hp; split at hp
        · simp [newPeer] at hp
        · exact .inl hp
  | delPeer pid =>
    simp only [step, Option.some.injEq] at h; subst h
    cases hf : find s pid with
    | none => simp only [delPeer, hf]; exact u.quiet (fun _ h => h) rfl rfl rfl
    | some p =>
      have k := del_eff s pid p hf
      exact u.mk' (Up.of_fix k.n k.fix) (fun c hc => by rw [k.cbs] at hc; exact .inl hc)
        (fun q c hq => by rw [k.peers] at hq; exact upd_inbound (p := p) (x := { s.peers p with freed := true }) (fun c h => .inl h) q c hq) (fun e he => by rw [k.posted] at he; exact .inl he)
  | setAddr pid a =>
    simp only [step, Option.some.injEq] at h; subst h
    unfold setPeerAddr; split
    · exact u.quiet (fun _ h => h) rfl rfl rfl
    · exact u.chg (chg_set _ _ _) (fun c h => .inl h)
  | connPeer pid n =>
    simp only [step, Option.some.injEq] at h; subst h
    cases dial_eff s pid n with
    | err e h ht => rw [ht]; exact u.quiet (fun _ h => h) rfl rfl rfl
    | ok p hf ha k => exact u.chg k (by simp [redial])
  | accept a c =>
    simp only [step] at h; split at h <;> simp at h; subst h
    exact u.quiet hs rfl rfl rfl
  | connect a =>
    simp only [step, Option.some.injEq] at h; subst h
    exact u.quiet hs rfl rfl rfl
  | established c cert draw =>
    simp only [step] at h
    split at h
    · rename_i hc
      injection h with h
      have k := est_eff g s c cert draw
      rw [h] at k
      refine u.mk' hs (fun c hc => by rw [k.cbs] at hc; exact .inl hc) (fun q d hq => ?_) (fun e he => by rw [k.posted] at he; exact .inl he)
      · rcases k.peers with hp | ⟨p, _, _, hp⟩
        · rw [hp] at hq; exact .inl hq
        · rw [hp] at hq; exact upd_inbound (fun c h => .inl (by simpa using h)) q d hq
    · cases h
  | ping c x draw =>
    simp only [step] at h
    split at h
    · rename_i hc
      injection h with h; rw [← h]; exact u.ping hc x draw
    · cases h
  | pong c x draw =>
    simp only [step] at h
    split at h
    · rename_i hc
      injection h with h; rw [← h]
      cases pong_eff g s c x draw with
      | nop e => exact u.quiet (Up.of_fix e.n e.fix) e.cbs e.peers e.posted
      | reject p _ _ e _ => exact u.chg e (fun c h => .inl (by simpa using h))
      | accept p hh hn e => exact u.fin e hc
      | ub _ _ _ e =>
        obtain ⟨v, k | k, e⟩ := e <;> rw [e]
        · exact u.quiet (Up.of_fix k.n k.fix) k.cbs k.peers k.posted
        · exact (u.chg k (fun c h => .inl h)).quiet (fun _ h => h) rfl rfl rfl
      | wait _ _ _ _ e => exact u.chg e (fun c h => .inl h)
      | beat _ _ _ _ _ _ e => exact u.chg e (fun c h => .inl h)
      | beatUb _ _ _ _ _ e =>
        obtain ⟨v, k, e⟩ := e; rw [e]
        exact (u.chg k (fun c h => .inl h)).quiet (fun _ h => h) rfl rfl rfl
    · cases h
  | deferred draw =>
    simp only [step] at h
    split at h
    · cases h
    · rename_i x c rest he
      injection h with h; rw [← h]
      have u1 : UpInv { s with posted := rest } :=
        u.mk' (fun _ h => h) (fun _ h => .inl h) (fun _ _ h => .inl h) (fun e h => .inl (by rw [he]; exact List.mem_cons_of_mem _ h))
      exact u1.ping (u.posted _ (by rw [he]; exact List.mem_cons_self) c rfl) x draw
    · rename_i x rest he
      injection h with h; rw [← h]
      exact u.mk' (fun _ h => h) (fun _ h => .inl h) (fun _ _ h => .inl h) (fun e h => .inl (by rw [he]; exact List.mem_cons_of_mem _ h))
  | lost c =>
    simp only [step] at h; split at h <;> simp at h; subst h
    exact u.quiet hs rfl rfl rfl
  | teardown c =>
    simp only [step] at h
    split at h
    · rename_i hc
      injection h with h
      have k := tear_eff s c
      rw [h] at k
      obtain ⟨k, e⟩ := k
      cases e with
      | nobody hp hpeers hposted hcbs hub => exact u.quiet hs hcbs hpeers hposted
      | ub p hp hm hf hpeers hposted hcbs hub => exact u.quiet hs hcbs hpeers hposted
      | preempt p x hp hm hf hh hpeers hposted hcbs hub =>
        refine u.mk' hs (fun c hc => by rw [hcbs] at hc; simpa using Or.inl hc) (fun q d hq => ?_) (fun e he => ?_)
        · rw [hpeers] at hq; exact upd_inbound (by simp) q d hq
        · rw [hposted] at he
          rcases List.mem_append.mp he with he | he
          · exact .inl he
          · simp only [List.mem_singleton] at he
            subst he
            exact .inr (fun c hc => u.inbound p c hc)
      | backoff p hp hm hf hh hpeers hposted hcbs hub =>
        refine u.mk' hs (fun c hc => by rw [hcbs] at hc; simpa using Or.inl hc) (fun q d hq => ?_) (fun e he => by rw [hposted] at he; exact .inl he)
        rw [hpeers] at hq; exact upd_inbound (by simp) q d hq
    · cases h
  | retry p =>
    simp only [step] at h
    split at h
    · injection h with h
      have k := retry_eff s p
      rw [h] at k
      exact u.mk' hs (fun c hc => by rw [k.cbs] at hc; exact .inl hc)
        (fun q c hq => by
          rw [k.peers] at hq
          exact upd_inbound (p := p) (x := { s.peers p with outbound := some s.n, retryArmed := true, dials := (s.peers p).dials + 1 }) (fun c h => .inl h) q c hq)
        (fun e he => by rw [k.posted] at he; exact .inl he)
    · cases h
  | pingTimer p =>
    simp only [step] at h
    split at h
    · injection h with h
      have k := timer_eff s p
      rw [h] at k
      cases k with
      | wait _ e => exact u.chg e (fun c h => .inl h)
      | beat _ _ _ e => exact u.chg e (fun c h => .inl h)
      | ub _ e =>
        obtain ⟨v, x, k, e, hx⟩ := e; rw [e]
        exact (u.chg k (by rcases hx with hx | hx <;> rw [hx] <;> exact (fun c h => .inl h))).quiet (fun _ h => h) rfl rfl rfl
    · cases h

theorem pend_step {g : Cfg} {s t : St} {a : Act} (b : Basic s) (z : Placeholders s) (u : UpInv s) (hd : DistinctAddrs s) (i : Pend s)
    (h : step g s a = some t) : Pend t := by
  have hl := life_step h
  have hnew : ∀ c, c < t.n → ¬ c < s.n → Waiting t c = false := by
    intro c h1 h2
    rcases new_conn h c h1 h2 with k | k
    · simp [Waiting, k.1]
    · simp [Waiting, k.1]
  have hmem : (∀ e, e ∈ t.pending ↔ e.2 < s.n ∧ Waiting t e.2 = true ∧ e.1 = (s.conns e.2).addr) →
      ∀ e, e ∈ t.pending ↔ e.2 < t.n ∧ Waiting t e.2 = true ∧ e.1 = (t.conns e.2).addr := by
    intro hh e
    rw [hh e]
    constructor
    · rintro ⟨h1, h2, h3⟩; exact ⟨by have := hl.n; omega, h2, by rw [hl.addr _ h1]; exact h3⟩
    · rintro ⟨h1, h2, h3⟩
      by_cases h4 : e.2 < s.n
      · exact ⟨h4, h2, by rw [hl.addr _ h4] at h3; exact h3⟩
      · rw [hnew _ h1 h4] at h2; cases h2
  -- waiting connections have their own address
  have hown : ∀ e ∈ s.pending, ∀ c, c < s.n → e.1 = (s.conns c).addr → e.2 = c := by
    intro e he c hc hec
    obtain ⟨h1, h2, h3⟩ := (i.mem e).mp he
    rw [waiting_iff] at h2
    apply Classical.byContradiction
    intro hne
    have h0 : (s.conns e.2).addr ≠ 0 := by
      intro h0
      have := z e.2 h1 h2.1 h0
      rw [h2.2.2.1] at this; cases this
    exact hd e.2 c h1 hc hne h2.1 h0 (by rw [← h3, hec])
  cases pend_eff b h with
  | keep hp h1 h2 hcbs =>
    refine ⟨by rw [hp]; exact i.nodup, hmem (fun e => ?_)⟩
    rw [hp, i.mem]
    refine and_congr_right (fun hlt => and_congr_left (fun _ => ?_))
    rw [waiting_iff, waiting_iff, hl.active _ hlt, hl.setUp _ hlt, hcbs]
    have : (t.conns e.2).torn = false ↔ (s.conns e.2).torn = false := by
      have := hl.torn _ hlt
      rw [← Bool.not_eq_true, ← Bool.not_eq_true, this]; simp [h2]
    simp [this, h1]
  | accept c hp hc h1 h2 hcbs =>
    refine ⟨?_, hmem (fun e => ?_)⟩
    · rw [hp]; exact List.Nodup.sublist (List.filter_sublist.map _) i.nodup
    · rw [hp, List.mem_filter]
      have : (t.conns e.2).torn = false ∧ e.2 < s.n ↔ (s.conns e.2).torn = false ∧ e.2 < s.n := by
        refine and_congr_left (fun hlt => ?_)
        have := hl.torn _ hlt
        rw [← Bool.not_eq_true, ← Bool.not_eq_true, this]; simp [h2]
      constructor
      · rintro ⟨h3, h4⟩
        have h5 := (i.mem e).mp h3
        refine ⟨h5.1, ?_, h5.2.2⟩
        have h6 := (waiting_iff _ _).mp h5.2.1
        rw [waiting_iff, hl.active _ h5.1, hl.setUp _ h5.1, hcbs]
        refine ⟨h6.1, .inl h6.2.1, (this.mpr ⟨h6.2.2.1, h5.1⟩).1, ?_⟩
        simp only [not_or]
        refine ⟨?_, h6.2.2.2⟩
        intro e2
        rw [h5.2.2, e2] at h4
        simp at h4
      · rintro ⟨h3, h4, h5⟩
        have h6 := (waiting_iff _ _).mp h4
        rw [hl.active _ h3, hl.setUp _ h3, hcbs, not_or] at h6
        have h7 : e ∈ s.pending := (i.mem e).mpr ⟨h3, (waiting_iff _ _).mpr
          ⟨h6.1, by simpa [h1] using h6.2.1, (this.mp ⟨h6.2.2.1, h3⟩).1, h6.2.2.2.2⟩, h5⟩
        refine ⟨h7, ?_⟩
        simp only [ne_eq, decide_not, Bool.not_eq_eq_eq_not, Bool.not_true, decide_eq_false_iff_not]
        intro he
        exact h6.2.2.2.1 (hown e h7 c hc he)
  | tear c ha hc hp hcbs =>
    refine ⟨?_, hmem (fun e => ?_)⟩
    · rw [hp]; exact List.Nodup.sublist (List.filter_sublist.map _) i.nodup
    · rw [hp, List.mem_filter]
      have htorn : e.2 < s.n → ((t.conns e.2).torn = false ↔ (s.conns e.2).torn = false ∧ e.2 ≠ c) := by
        intro hlt
        have := hl.torn _ hlt
        rw [← Bool.not_eq_true, ← Bool.not_eq_true, this, ha, not_or]
        refine and_congr_right (fun _ => not_congr ⟨fun h => ?_, fun h => by rw [h]⟩)
        injection h with h; exact h.symm
      have hset : e.2 < s.n → ((t.conns e.2).setUp = true ↔ (s.conns e.2).setUp = true) := by
        intro hlt; rw [hl.setUp _ hlt, ha]; simp
      constructor
      · rintro ⟨h3, h4⟩
        have h5 := (i.mem e).mp h3
        refine ⟨h5.1, ?_, h5.2.2⟩
        have h6 := (waiting_iff _ _).mp h5.2.1
        rw [waiting_iff, hl.active _ h5.1, hset h5.1, hcbs, htorn h5.1]
        refine ⟨h6.1, h6.2.1, ⟨h6.2.2.1, ?_⟩, h6.2.2.2⟩
        intro e2
        rw [h5.2.2, e2] at h4
        simp at h4
      · rintro ⟨h3, h4, h5⟩
        have h6 := (waiting_iff _ _).mp h4
        rw [hl.active _ h3, hset h3, hcbs, htorn h3] at h6
        have h7 : e ∈ s.pending := (i.mem e).mpr ⟨h3, (waiting_iff _ _).mpr ⟨h6.1, h6.2.1, h6.2.2.1.1, h6.2.2.2⟩, h5⟩
        refine ⟨h7, ?_⟩
        simp only [ne_eq, decide_not, Bool.not_eq_eq_eq_not, Bool.not_true, decide_eq_false_iff_not]
        intro he
        exact h6.2.2.1.2 (hown e h7 c hc he)
  | est c x d ha hc hs htn hp hcbs =>
    have htorn : ∀ e, e < s.n → ((t.conns e).torn = false ↔ (s.conns e).torn = false) := by
      intro e hlt
      have := hl.torn _ hlt
      rw [← Bool.not_eq_true, ← Bool.not_eq_true, this, ha]; simp
    have hset : ∀ e, e < s.n → ((t.conns e).setUp = true ↔ (s.conns e).setUp = true ∨ e = c) := by
      intro e hlt; rw [hl.setUp _ hlt, ha]
      refine or_congr_right ⟨fun ⟨_, _, h⟩ => ?_, fun h => ⟨x, d, by rw [h]⟩⟩
      injection h with h; exact h.symm
    have hno : ∀ e ∈ s.pending, e.2 ≠ c := by
      intro e he hec
      have := (waiting_iff _ _).mp ((i.mem e).mp he).2.1
      rw [hec, hs] at this; simp at this
    rcases hp with ⟨hp, hact | ⟨e, he, h1, h2⟩⟩ | ⟨hact, hp⟩
    · refine ⟨by rw [hp]; exact i.nodup, hmem (fun e => ?_)⟩
      rw [hp, i.mem]
      refine and_congr_right (fun hlt => and_congr_left (fun _ => ?_))
      rw [waiting_iff, waiting_iff, hl.active _ hlt, hset _ hlt, hcbs, htorn _ hlt]
      by_cases hec : e.2 = c
      · rw [hec, hact]; simp
      · simp [hec]
    · exact absurd h2 (hno e he)
    · have hfil : s.pending.filter (fun e => decide (e.1 ≠ (s.conns c).addr)) = s.pending := by
        rw [List.filter_eq_self]
        intro e he
        simp only [ne_eq, decide_not, Bool.not_eq_eq_eq_not, Bool.not_true, decide_eq_false_iff_not]
        intro h; exact hno e he (hown e he c hc h)
      rw [hfil] at hp
      refine ⟨?_, hmem (fun e => ?_)⟩
      · rw [hp, List.map_append, List.nodup_append]
        refine ⟨i.nodup, by simp, ?_⟩
        intro y hy z hz
        simp only [List.map_cons, List.map_nil, List.mem_singleton] at hz
        obtain ⟨e, he, hey⟩ := List.mem_map.mp hy
        rw [hz, ← hey]; exact hno e he
      · rw [hp, List.mem_append, List.mem_singleton, i.mem]
        constructor
        · rintro (⟨h3, h4, h5⟩ | h3)
          · refine ⟨h3, ?_, h5⟩
            rw [waiting_iff] at h4 ⊢
            rw [hl.active _ h3, hset _ h3, hcbs, htorn _ h3]
            exact ⟨h4.1, .inl h4.2.1, h4.2.2⟩
          · subst h3
            refine ⟨hc, ?_, rfl⟩
            rw [waiting_iff, hl.active _ hc, hset _ hc, hcbs, htorn _ hc]
            refine ⟨hact, .inr rfl, htn, fun hcb => ?_⟩
            have := u.cbs _ hcb
            rw [this.2] at hs; cases hs
        · rintro ⟨h3, h4, h5⟩
          by_cases hec : e.2 = c
          · right
            rw [← hec, ← h5]
          · left
            refine ⟨h3, ?_, h5⟩
            rw [waiting_iff] at h4 ⊢
            rw [hl.active _ h3, hset _ h3, hcbs, htorn _ h3] at h4
            exact ⟨h4.1, by simpa [hec] using h4.2.1, h4.2.2⟩

end PeerNet
end Salticidae
