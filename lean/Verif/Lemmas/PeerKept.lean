import Verif.Lemmas.PeerIdle
import Verif.Spec.PeerIdle
/-!
C115: a peer that answers its heartbeats keeps its connection.
-/
namespace Salticidae
namespace PeerNet

/-- A handshake is completed over a connection that exists. -/
theorem fin_lt {g : Cfg} {s t : St} {a : Act} {c : Nat} (b : Basic s) (h : step g s a = some t) (hc : t.cbs = s.cbs ++ [(c, true)]) : c < s.n := by
  have hne : ∀ (l : List (Nat × Bool)) (x : Nat × Bool), l ≠ l ++ [x] := by
    intro l x e
    have := congrArg List.length e
    simp at this
  cases step_eff h with
  | quiet e _ _ => rw [e] at hc; exact absurd hc (hne _ _)
  | dial _ _ e _ _ _ => rw [e] at hc; exact absurd hc (hne _ _)
  | add _ _ e _ _ _ => rw [e] at hc; exact absurd hc (hne _ _)
  | down _ _ _ _ e _ _ _ => rw [e] at hc; simp at hc
  | accept p d pid hi hf hst ht e hconn hlink hup hl =>
    rw [e] at hc
    simp at hc
    subst hc
    have h1 := ((b.step h).link d p hl).1
    cases a with
    | ping x y z => simp only [step] at h; split at h <;> cases h; rw [ping_n] at h1; exact h1
    | pong x y z => simp only [step] at h; split at h <;> cases h; rw [pong_n] at h1; exact h1
    | deferred z =>
      simp only [step] at h
      split at h <;> cases h
      · rw [ping_n] at h1; exact h1
      · exact h1
    | _ => simp [Spec.PeerNet.identity] at hi

/-- The peers of a later state were there before, or have just been added. -/
theorem known_back {g : Cfg} {s t : St} {a : Act} (h : step g s a = some t) {e : Nat × Nat} (he : e ∈ t.known) :
    e ∈ s.known ∨ (t.peers e.2).pingArmed = false := by
  by_cases h1 : ∃ p, a = .addPeer p
  · obtain ⟨p, rfl⟩ := h1
    simp only [step, Option.some.injEq] at h; subst h
    unfold addPeer at he ⊢
    split at he
    · exact .inl he
    · rename_i hf
      rw [if_neg hf]
      simp only [List.mem_append, List.mem_singleton] at he
      rcases he with he | he
      · exact .inl he
      · right; subst he; simp [newPeer]
  · by_cases h2 : ∃ p, a = .delPeer p
    · obtain ⟨p, rfl⟩ := h2
      left
      simp only [step, Option.some.injEq] at h; subst h
      unfold delPeer at he
      split at he
      · exact he
      · simp only [List.mem_filter] at he
        have k : ∀ (s : St) (o : Option Nat), (unlink s o).known = s.known := by intro s o; cases o <;> rfl
        have k' : ∀ (s : St) (o : Option Nat), (dispTerminate? s o).known = s.known := by intro s o; cases o <;> rfl
        have := he.1
        simp only [k, k'] at this
        exact this
    · left
      rw [← known_step h (fun p e => h1 ⟨p, e⟩) (fun p e => h2 ⟨p, e⟩)]
      exact he

end PeerNet

namespace PeerIdle
open Spec.PeerIdle
open PeerNet (Basic Clean Waits life_step out_step clean_step pstep PStep one_up fin_lt known_back)

/-- `l`: the times of the calls of tcall_reset_timeout from the last one executed on; no two in a row are farther apart than `D`; `last` is the last. -/
def near (D : Nat) : Nat → List Nat → Prop
  | _, [] => True
  | a, b :: l => b ≤ a + D ∧ near D b l

def endOf : Nat → List Nat → Nat
  | a, [] => a
  | _, b :: l => endOf b l

def Chain (D : Nat) (last : Option Nat) : List Nat → Prop
  | [] => last = none
  | a :: l => near D a l ∧ last = some (endOf a l)

theorem near_snoc {D n : Nat} {l : List Nat} {a : Nat} (h : near D a l) (hn : n ≤ endOf a l + D) : near D a (l ++ [n]) ∧ endOf a (l ++ [n]) = n := by
  induction l generalizing a with
  | nil => exact ⟨⟨hn, trivial⟩, rfl⟩
  | cons b l ih =>
    have := ih h.2 hn
    exact ⟨⟨h.1, this.1⟩, this.2⟩

theorem chain_snoc {D n : Nat} {last : Option Nat} {l : List Nat} (h : Chain D last l) (hn : ∀ r, last = some r → n ≤ r + D) :
    Chain D (some n) (l ++ [n]) := by
  cases l with
  | nil => exact ⟨trivial, rfl⟩
  | cons a l =>
    have := near_snoc h.1 (hn _ h.2)
    exact ⟨this.1, by show some n = some (endOf a (l ++ [n])); rw [this.2]⟩

theorem chain_more {D n k : Nat} {last : Option Nat} {l : List Nat} (h : Chain D last l) (hn : k ≠ 0 → ∀ r, last = some r → n ≤ r + D) :
    Chain D (if k = 0 then last else some n) (l ++ List.replicate k n) := by
  induction k with
  | zero => simpa using h
  | succ k ih =>
    rw [if_neg (by omega), List.replicate_succ', ← List.append_assoc]
    refine chain_snoc (ih fun _ => hn (by omega)) ?_
    intro r hr
    split at hr
    · exact hn (by omega) r hr
    · injection hr with hr; omega

theorem chain_tail {D a b : Nat} {last : Option Nat} {l : List Nat} (h : Chain D last (a :: b :: l)) : Chain D last (b :: l) :=
  ⟨h.1.2, h.2⟩

/-- The heartbeats of the peers, and the times at which they were sent. -/
structure Beats (g : Cfg) (s : St) : Prop where
  up : ∀ p, Waits (s.net.peers p)
  tick : ∀ p, (s.net.peers p).state ≠ .disconnected → (s.net.peers p).pingArmed = true → ∃ d, s.tick p = some d ∧ d ≤ s.sent p + g.ping
  late : ∀ e ∈ s.net.known, (s.net.peers e.2).state ≠ .disconnected → (s.net.peers e.2).pingArmed = true → ∀ d, s.tick e.2 = some d → s.now ≤ d + g.lag
  last : ∀ p, (s.net.peers p).state ≠ .disconnected → ∃ r, s.last (s.net.peers p).conn = some r ∧ s.sent p ≤ r
  sent : ∀ p, s.sent p ≤ s.now

theorem beats_init (g : Cfg) : Beats g init := by
  refine ⟨fun p h => ?_, fun p h => ?_, ?_, fun p h => ?_, fun _ => Nat.le_refl _⟩
  · simp [init, PeerNet.init, PeerNet.newPeer] at h
  · simp [init, PeerNet.init, PeerNet.newPeer] at h
  · intro e h; simp [init, PeerNet.init] at h
  · simp [init, PeerNet.init, PeerNet.newPeer] at h

theorem beater_chosen {s : PeerNet.St} {a : PeerNet.Act} {p : Nat} (h : beater s a = some p) : PeerNet.beatOn s a = (s.peers p).chosen := by
  unfold beater at h
  unfold PeerNet.beatOn
  split at h
  · split at h
    · rename_i e
      dsimp only
      rw [if_pos e]
      split at h
      · rename_i q hq
        split at h
        · rename_i e'
          injection h with h; subst h
          simp only [hq]; rw [if_pos e']
        · cases h
      · cases h
    · cases h
  · split at h
    · rename_i e
      injection h with h; subst h
      dsimp only
      rw [if_pos e]
    · cases h
  · cases h

/-- Does not the timer of a peer that is up run anew, then its timer and its connection are what they were. -/
theorem not_restarted {g : PeerNet.Cfg} {s t : PeerNet.St} {a : PeerNet.Act} (b : Basic s) (h : PeerNet.step g s a = some t)
    (up : ∀ p, Waits (s.peers p)) (p : Nat) (hr : restarts s a t p = false) (hst : (t.peers p).state ≠ .disconnected) :
    (s.peers p).state ≠ .disconnected ∧ (t.peers p).conn = (s.peers p).conn ∧ ((t.peers p).pingArmed = true → (s.peers p).pingArmed = true) := by
  simp only [restarts, Bool.or_eq_false_iff, beq_eq_false_iff_ne, Bool.and_eq_false_iff] at hr
  by_cases hd : ∃ c x d, a = .pong c x d ∧ (s.conns c).term = true
  · obtain ⟨c, x, d, ha, ht⟩ := hd
    subst ha
    rw [PeerNet.pong_dead h ht] at hst ⊢
    exact ⟨hst, rfl, id⟩
  have e := pstep b h p
  generalize t.peers p = y at e hst hr ⊢
  cases e with
  | same => exact ⟨hst, rfl, id⟩
  | new pid ha hq => simp [PeerNet.newPeer] at hst
  | free pid ha => exact ⟨hst, rfl, id⟩
  | addr pid v ha => exact ⟨hst, rfl, id⟩
  | redial pid n ha hf hv =>
    refine ⟨fun e => ?_, rfl, fun e => ?_⟩
    · simp [PeerNet.redial, e] at hst
    · simp [PeerNet.redial] at e
  | nonce d => exact ⟨by simpa using hst, by simp, by simp⟩
  | preempt c x hi hp' hst' => exact ⟨hst, rfl, id⟩
  | reject d i' o' hst' hi => simp [hst'] at hst
  | fin d i' o' c hst' hcbs =>
    rcases hr.2 with h | h
    · exact absurd hst' h
    · simp [PeerNet.finished] at h
  | pong c x d ha hp' hz ho => exact ⟨hst, rfl, id⟩
  | beat ha ho =>
    exfalso
    obtain ⟨u1, u2, u3, u4, u5, _⟩ := up p hst
    apply hr.1
    rcases ha with ⟨c, x, d, ha, hp, hz⟩ | ⟨ha, hx⟩
    · have ht : (s.conns c).term = false := by
        cases e : (s.conns c).term with
        | false => rfl
        | true => exact absurd ⟨c, x, d, ha, e⟩ hd
      have := ho.1 c x d ha
      subst ha
      simp [beater, ht, hz, hp, this.1, this.2]
    · have := ho.2 ha
      subst ha
      rw [u1, u5] at this
      simp only [reduceCtorEq, or_false, Option.some.injEq] at this
      simp [beater, u5, this]
  | wait ha ho => exact ⟨hst, rfl, fun e => by simp at e⟩
  | takeover c x ha hp' => simp at hst
  | backoff c ha hp' => simp at hst
  | retry ha => exact ⟨hst, rfl, id⟩

/-- When it does, the timeout of its connection is put off. -/
theorem restarted {g : PeerNet.Cfg} {s t : PeerNet.St} {a : PeerNet.Act} (hg : g.listenAddr ≠ 0) (b : Basic s) (k : Clean s)
    (h : PeerNet.step g s a = some t) (up : ∀ p, Waits (s.peers p)) (p : Nat) (hr : restarts s a t p = true)
    (hst : (t.peers p).state ≠ .disconnected) : resets s t (t.peers p).conn ≠ 0 := by
  obtain ⟨f, f1, _, f3⟩ := out_step b k h
  have more : ∀ c, c < s.n → 1 ≤ PeerNet.pings (f c) → resets s t c ≠ 0 := by
    intro c hc h1
    unfold resets beats
    rw [if_pos hc, f1 c hc, List.count_append]
    unfold PeerNet.pings at h1
    omega
  have hfin : ∀ c, t.cbs = s.cbs ++ [(c, true)] → resets s t c ≠ 0 := by
    intro c hc
    have hlt := fin_lt b h hc
    refine more c hlt ?_
    rw [(f3 c hlt).2 hg, if_pos hc]; omega
  by_cases hs : (s.peers p).state = .disconnected
  · have e := pstep b h p
    generalize t.peers p = y at e hst hr ⊢
    cases e with
    | fin d i' o' c hst' hcbs hnew => exact hfin c (hnew _ h)
    | redial pid n ha hf hv => simp [PeerNet.redial, hs] at hst
    | new pid ha hq => simp [PeerNet.newPeer] at hst
    | nonce d => simp [hs] at hst
    | reject d i' o' hst' hi => simp [hs] at hst
    | takeover c x ha hp' => simp at hst
    | backoff c ha hp' => simp at hst
    | _ => exact absurd hs hst
  · have hb : beater s a = some p := by
      simpa [restarts, hs] using hr
    obtain ⟨u1, _⟩ := up p hs
    have hb' := beater_chosen hb
    rw [u1] at hb'
    have hm : p < s.m := by
      unfold beater at hb
      split at hb
      · split at hb
        · split at hb
          · rename_i q hq
            split at hb
            · injection hb with hb; subst hb; exact (b.link _ _ hq).2
            · cases hb
          · cases hb
        · cases hb
      · split at hb
        · injection hb with hb; subst hb
          simp only [PeerNet.step] at h
          split at h
          · rename_i e; exact e.1
          · cases h
        · cases hb
      · cases hb
    have hlt := (b.idx p hm).1
    have hc : (t.peers p).conn = (s.peers p).conn := by
      have e := pstep b h p
      generalize t.peers p = y at e hst ⊢
      cases e with
      | fin d i' o' c hst' hcbs hnew => exact absurd hst' hs
      | new pid ha hq => omega
      | nonce d => simp
      | reject d i' o' hst' hi => exact absurd hst' hs
      | takeover c x ha hp' => simp
      | backoff c ha hp' => simp
      | _ => rfl
    rw [hc]
    refine more _ hlt ?_
    rw [(f3 _ hlt).2 hg, if_pos hb']; omega

theorem beats_step {g : Cfg} {s t : St} {a : Act} (hg : g.net.listenAddr ≠ 0) (i : Inv g s) (k : Beats g s) (h : step g s a = some t) : Beats g t := by
  cases a with
  | net a w =>
    simp only [step] at h
    split at h
    rotate_left
    · cases h
    rename_i hw
    simp only [Option.map_eq_some_iff] at h
    obtain ⟨n, hn, rfl⟩ := h
    refine ⟨fun p => one_up i.base hn p (k.up p), fun p hst ha => ?_, fun e he hst ha d hd => ?_, fun p hst => ?_, fun p => ?_⟩
    · simp only at hst ha ⊢
      cases hr : restarts s.net a n p with
      | true => simp only [if_true]; exact ⟨_, rfl, by omega⟩
      | false =>
        obtain ⟨h1, h2, h3⟩ := not_restarted i.base hn k.up p hr hst
        simpa using k.tick p h1 (h3 ha)
    · simp only at he hst ha hd ⊢
      cases hr : restarts s.net a n e.2 with
      | true => rw [hr] at hd; simp only [if_true, Option.some.injEq] at hd; omega
      | false =>
        rw [hr] at hd
        obtain ⟨h1, h2, h3⟩ := not_restarted i.base hn k.up e.2 hr hst
        rcases known_back hn he with hk | hk
        · exact k.late e hk h1 (h3 ha) d (by simpa using hd)
        · rw [hk] at ha; cases ha
    · simp only at hst ⊢
      cases hr : restarts s.net a n p with
      | true =>
        rw [if_neg (restarted hg i.base i.clean hn k.up p hr hst)]
        exact ⟨_, rfl, by simp⟩
      | false =>
        obtain ⟨h1, h2, h3⟩ := not_restarted i.base hn k.up p hr hst
        rw [h2]
        simp only [Bool.false_eq_true, if_false]
        split
        · exact k.last p h1
        · exact ⟨_, rfl, k.sent p⟩
    · simp only
      split
      · exact Nat.le_refl _
      · exact k.sent p
  | data c =>
    simp only [step] at h
    split at h <;> cases h
    exact ⟨k.up, k.tick, k.late, k.last, k.sent⟩
  | wait d =>
    simp only [step] at h
    split at h <;> cases h
    rename_i hw
    exact ⟨k.up, k.tick, fun e he _ ha d hd => hw.2 e he ha d hd, k.last, fun p => Nat.le_trans (k.sent p) (Nat.le_add_right _ _)⟩
  | reset c =>
    simp only [step] at h
    split at h <;> cases h
    exact ⟨k.up, k.tick, k.late, k.last, k.sent⟩
  | expire c =>
    simp only [step] at h
    split at h
    · cases h
    · split at h
      · simp only [Option.map_eq_some_iff] at h
        obtain ⟨n, hn, rfl⟩ := h
        simp only [PeerNet.step] at hn
        split at hn <;> cases hn
        exact ⟨k.up, k.tick, k.late, k.last, k.sent⟩
      · cases h

/-- The time since the last grant. -/
theorem since {g : Cfg} {s : St} (i : Inv g s) (k : Beats g s) {R D c r : Nat} (h1 : g.ping + g.lag ≤ D) (h2 : R ≤ D) (hp : Prompt R s c)
    (hr : s.last c = some r) : s.now ≤ r + D := by
  rcases hp r hr with h | ⟨pid, p, hf, hst, hc, ha⟩
  · omega
  · have hst' : (s.net.peers p).state ≠ .disconnected := by rw [hst]; simp
    obtain ⟨u1, e, w, u4, u5, u6, u7⟩ := k.up p hst'
    obtain ⟨r', l1, l2⟩ := k.last p hst'
    rw [hc, hr] at l1
    injection l1 with l1
    cases w with
    | false => have := ha u5; omega
    | true =>
      have he : e = false := by simpa using u6
      rcases u7 he with u7 | u7
      · obtain ⟨d, d1, d2⟩ := k.tick p hst' u7
        have := k.late _ (PeerNet.find_mem hf) hst' u7 d d1
        omega
      · rw [hst] at u7; cases u7

/-- The calls for `c`. -/
structure Calls (g : Cfg) (D c : Nat) (s : St) : Prop where
  chain : Chain D (s.last c) ((s.done c).toList ++ s.req c)
  due : (s.net.conns c).term = false → ∀ d, s.due c = some d → ∃ r, s.done c = some r ∧ r + g.timeout ≤ d

theorem calls_step {g : Cfg} {s t : St} {a : Act} {D c : Nat} (i : Inv g s) (k : Calls g D c s) (hs : ∀ r, s.last c = some r → s.now ≤ r + D)
    (h : step g s a = some t) : Calls g D c t := by
  have live : (t.net.conns c).term = false → c < s.net.n → (s.net.conns c).term = false := fun ht hc => (later_step i h c hc).term ht
  cases a with
  | net a w =>
    simp only [step] at h
    split at h
    rotate_left
    · cases h
    simp only [Option.map_eq_some_iff] at h
    obtain ⟨n, hn, rfl⟩ := h
    refine ⟨?_, fun ht d hd => ?_⟩
    · simp only
      rw [← List.append_assoc]
      exact chain_more k.chain (fun _ => hs)
    · simp only at hd ht ⊢
      by_cases hc : c < s.net.n
      · exact k.due (live ht hc) d hd
      · rw [(i.new c (by omega)).2] at hd; cases hd
  | data c =>
    simp only [step] at h
    split at h <;> cases h
    exact ⟨k.chain, k.due⟩
  | wait d =>
    simp only [step] at h
    split at h <;> cases h
    exact ⟨k.chain, k.due⟩
  | reset x =>
    simp only [step] at h
    split at h
    · cases h
    · rename_i r rs hr
      cases h
      by_cases e : c = x
      · subst e
        have hch := k.chain
        rw [hr] at hch
        refine ⟨?_, fun ht d hd => ?_⟩
        · simp only [if_true, Option.toList_some, List.singleton_append]
          cases hd : s.done c with
          | none => rw [hd] at hch; exact hch
          | some a => rw [hd] at hch; exact chain_tail hch
        · simp only at ht
          simp only [ht, and_self, if_true, Option.some.injEq] at hd ⊢
          have hc : c < s.net.n := by
            apply Nat.lt_of_not_le
            intro hle
            rw [(i.new c hle).1] at hr; cases hr
          have := (i.req c hc ht r (by rw [hr]; exact List.mem_cons_self)).1
          exact ⟨r, rfl, by omega⟩
      · refine ⟨?_, fun ht d hd => ?_⟩
        · simp only [if_neg e]; exact k.chain
        · simp only [e, false_and, if_false] at hd ⊢; exact k.due ht d hd
  | expire x =>
    simp only [step] at h
    split at h
    · cases h
    · split at h
      · simp only [Option.map_eq_some_iff] at h
        obtain ⟨n, hn, rfl⟩ := h
        refine ⟨k.chain, fun ht d hd => ?_⟩
        by_cases hc : c < s.net.n
        · exact k.due (live ht hc) d hd
        · rw [(i.new c (by omega)).2] at hd; cases hd
      · cases h

theorem calls_init (g : Cfg) (D c : Nat) : Calls g D c init := ⟨rfl, fun _ _ h => by cases h⟩

theorem calls_run {g : Cfg} (hg : g.net.listenAddr ≠ 0) {R D c : Nat} (h1 : g.ping + g.lag ≤ D) (h2 : R ≤ D) {l : List Act} {s t : St} (i : Inv g s) (b : Beats g s)
    (k : Calls g D c s) (h : run g s l = some t) (hp : ∀ l1 l2 u, l = l1 ++ l2 → run g s l1 = some u → Prompt R u c) :
    Inv g t ∧ Beats g t ∧ Calls g D c t := by
  induction l generalizing s with
  | nil => cases h; exact ⟨i, b, k⟩
  | cons a l ih =>
    simp only [run, Option.bind_eq_some_iff] at h
    obtain ⟨u, hu, h⟩ := h
    refine ih (inv_step i hu) (beats_step hg i b hu) (calls_step i k (fun r hr => since i b h1 h2 (hp [] _ s rfl rfl) hr) hu) h ?_
    intro l1 l2 v hl hv
    exact hp (a :: l1) l2 v (by rw [hl]; rfl) (by simp [run, hu, hv])

/-- The timer of a connection that is not terminated and that has been granted time often enough is not due. -/
theorem not_due {g : Cfg} {s : St} {D c : Nat} (i : Inv g s) (k : Calls g D c s) (hs : ∀ r, s.last c = some r → s.now ≤ r + D)
    (hD : D + g.lag < g.timeout) (ht : (s.net.conns c).term = false) : step g s (.expire c) = none := by
  simp only [step]
  split
  · rfl
  · rename_i d hd
    rw [if_neg]
    intro hle
    obtain ⟨r, r1, r2⟩ := k.due ht d hd
    have hch := k.chain
    rw [r1] at hch
    cases hq : s.req c with
    | nil =>
      rw [hq] at hch
      have := hs r hch.2
      omega
    | cons x l =>
      rw [hq] at hch
      have h1 := hch.1.1
      have hc : c < s.net.n := by
        apply Nat.lt_of_not_le
        intro hle
        rw [(i.new c hle).1] at hq; cases hq
      have := (i.req c hc ht x (by rw [hq]; exact List.mem_cons_self)).2
      omega

end PeerIdle
end Salticidae
