import Verif.Spec.Sys
namespace Salticidae
namespace Sys
open Spec.Sys

def syncOf : Task → Option Nat
  | .sync c _ => some c
  | _ => none

/-- The worker is about to end. -/
def Doomed (l : Loop) : Prop := l.phase = .ended ∨ l.ending = true ∨ .stop ∈ l.q

structure Life (s : St) : Prop where
  npos : 0 < s.n
  idle : s.sys = 0 → (∀ i, (s.loops i).phase = .idle ∧ (s.loops i).ending = false) ∧ s.tstop = false
  act : s.sys ≠ 0 → ∀ i < s.n, (s.loops i).phase ≠ .idle
  q0 : .stop ∉ (s.loops 0).q
  disp : s.pc = .out → s.sys ≤ 1 ∧ s.exitReq = false ∧ (s.loops 0).ending = false ∧ (s.loops 0).phase ≠ .ended
  two : s.pc ≠ .out → s.sys = 2
  pc1 : s.pc = .joinDisp → s.exitReq = true ∨ (s.loops 0).ending = true
  pc2 : s.pc = .joinWorkers ∨ s.pc = .finished → (s.loops 0).phase = .ended ∧ ∀ i, 1 ≤ i → i < s.n → Doomed (s.loops i)
  fin : s.pc = .finished → ∀ i < s.n, (s.loops i).phase = .ended
  oth : s.out ≠ [] → ∀ i, 1 ≤ i → i < s.n → Doomed (s.loops i)

theorem life_init {n : Nat} (h : 0 < n) : Life (init n) := by
  refine ⟨h, ?_, ?_, ?_, ?_, ?_, ?_, ?_, ?_, ?_⟩ <;> simp [init]

theorem life_step {s t : St} {a : Act} (h : Life s) (ha : step s a = some t) : Life t := by
  obtain ⟨h1, h2, h3, h4, h5, h6, h7, h8, h9, h10⟩ := h
  cases a with
  | start =>
    simp only [step] at ha
    split at ha <;> cases ha
    · exact ⟨h1, h2, h3, h4, h5, h6, h7, h8, h9, h10⟩
    · constructor <;> grind [Doomed]
  | call c ok =>
    simp only [step] at ha; cases ha
    constructor <;> simp only [push, setLoop] <;> grind [Doomed]
  | post i k =>
    simp only [step] at ha
    split at ha <;> cases ha
    constructor <;> simp only [push, setLoop] <;> grind [Doomed]
  | postBad i e =>
    simp only [step] at ha
    split at ha <;> cases ha
    constructor <;> simp only [push, setLoop] <;> grind [Doomed]
  | run i =>
    simp only [step] at ha
    split at ha <;> try cases ha
    split at ha <;> cases ha
    rename_i t rest hq
    by_cases h0 : i = 0
    · subst h0
      by_cases hts : s.tstop = true
      · cases t <;> simp only [exec0, if_true, setLoop, hts] <;> constructor <;> grind [Doomed]
      · cases t <;> simp only [exec0, if_true, setLoop, hts, dispError] <;> constructor <;> grind [Doomed]
    · cases t <;> simp only [execW, if_neg h0, setLoop, push] <;> constructor <;> grind [Doomed]
  | timer e =>
    simp only [step] at ha
    split at ha <;> cases ha
    constructor <;> simp only [dispError] <;> grind [Doomed]
  | exit =>
    simp only [step] at ha
    split at ha <;> cases ha
    constructor <;> simp only [setLoop] <;> grind [Doomed]
  | quit i =>
    simp only [step] at ha
    split at ha <;> cases ha
    constructor <;> simp only [setLoop] <;> grind [Doomed]
  | user =>
    simp only [step] at ha
    split at ha <;> cases ha
    constructor <;> simp only [stopAll] <;> grind [Doomed]
  | stop =>
    simp only [step] at ha
    split at ha <;> cases ha
    · exact ⟨h1, h2, h3, h4, h5, h6, h7, h8, h9, h10⟩
    · constructor <;> grind [Doomed]
  | join =>
    simp only [step] at ha
    split at ha
    · split at ha <;> cases ha
      constructor <;> simp only [stopAll] <;> grind [Doomed]
    · split at ha <;> cases ha
      constructor <;> grind [Doomed]
    · cases ha

structure Cnt (ask : List Nat) (s : St) : Prop where
  le : ∀ e, s.out.count e + s.user.count e + (s.loops 0).q.count (.fwd e) ≤ s.occ.count e
  eq : s.tstop = false → s.out = [] ∧ s.user = [] ∧ ∀ e, (s.loops 0).q.count (.fwd e) = s.occ.count e
  ts : s.tstop = true → s.out ≠ [] ∨ s.user ≠ []
  calls : ask = s.done.map (·.1) ++ (s.loops 0).q.filterMap syncOf

theorem cnt_init (n : Nat) : Cnt [] (init n) := by
  refine ⟨?_, ?_, ?_, ?_⟩ <;> simp [init]

/-- Nothing that counts changes. -/
theorem Cnt.same {ask : List Nat} {s t : St} (h : Cnt ask s) (e1 : t.out = s.out) (e2 : t.user = s.user) (e3 : t.occ = s.occ) (e4 : t.done = s.done)
    (e5 : t.tstop = s.tstop) (e6 : (t.loops 0).q = (s.loops 0).q) : Cnt ask t := by
  refine ⟨?_, ?_, ?_, ?_⟩
  · rw [e1, e2, e3, e6]; exact h.le
  · rw [e1, e2, e3, e5, e6]; exact h.eq
  · rw [e1, e2, e5]; exact h.ts
  · rw [e4, e6]; exact h.calls

/-- A closure that is neither a call nor a forwarded error. -/
theorem Cnt.push {ask : List Nat} {s t : St} {x : Task} (h : Cnt ask s) (hx : syncOf x = none) (hf : ∀ e, x ≠ .fwd e) (e1 : t.out = s.out) (e2 : t.user = s.user)
    (e3 : t.occ = s.occ) (e4 : t.done = s.done) (e5 : t.tstop = s.tstop) (e6 : (t.loops 0).q = (s.loops 0).q ++ [x]) : Cnt ask t := by
  have hc : ∀ e, (t.loops 0).q.count (.fwd e) = (s.loops 0).q.count (.fwd e) := by
    intro e
    rw [e6, List.count_append, List.count_singleton]
    simp [hf e]
  refine ⟨?_, ?_, ?_, ?_⟩
  · simp only [e1, e2, e3, hc]; exact h.le
  · simp only [e1, e2, e3, e5, hc]; exact h.eq
  · rw [e1, e2, e5]; exact h.ts
  · rw [e4, e6, List.filterMap_append]
    simpa [hx] using h.calls

theorem cnt_exec0 {ask : List Nat} {s : St} {t : Task} {rest : List Task} (h : Cnt ask s) (hq : (s.loops 0).q = t :: rest) (h0 : .stop ∉ (s.loops 0).q) :
    Cnt ask (exec0 (setLoop s 0 { s.loops 0 with q := rest }) t) := by
  obtain ⟨h1, h2, h3, h4⟩ := h
  rw [hq] at h0
  simp only [hq, List.filterMap_cons] at h1 h2 h4
  by_cases hts : s.tstop = true
  · cases t <;> simp only [exec0, if_true, setLoop, hts] <;> (refine ⟨fun d => ?_, fun hh => ?_, fun hh => ?_, ?_⟩ <;> simp only [if_true]) <;>
      first
      | (have := h1 d; rw [List.count_cons] at this; omega)
      | (cases hh; done)
      | exact h3 hts
      | simpa [syncOf] using h4
      | skip
  · have hts : s.tstop = false := by simpa using hts
    obtain ⟨g1, g2, g3⟩ := h2 hts
    cases t with
    | sync c ok =>
      simp only [exec0, setLoop, hts]
      refine ⟨fun d => ?_, fun _ => ⟨g1, g2, fun d => ?_⟩, fun hh => ?_, ?_⟩
      · have := h1 d; rw [List.count_cons] at this; simp at this ⊢; omega
      · have := g3 d; rw [List.count_cons] at this; simpa using this
      · simp [hts] at hh
      · simpa [syncOf] using h4
    | work k =>
      simp only [exec0, setLoop, hts]
      refine ⟨fun d => ?_, fun _ => ⟨g1, g2, fun d => ?_⟩, fun hh => ?_, ?_⟩
      · have := h1 d; rw [List.count_cons] at this; simp at this ⊢; omega
      · have := g3 d; rw [List.count_cons] at this; simpa using this
      · simp [hts] at hh
      · simpa [syncOf] using h4
    | bad e =>
      simp only [exec0, setLoop, hts, dispError]
      refine ⟨fun d => ?_, fun hh => by simp at hh, fun hh => .inr (by simp), ?_⟩
      · have := h1 d
        rw [List.count_cons] at this
        simp [List.count_append] at this ⊢; omega
      · simpa [syncOf] using h4
    | fwd e =>
      simp only [exec0, setLoop, hts, dispError]
      refine ⟨fun d => ?_, fun hh => by simp at hh, fun hh => .inr (by simp), ?_⟩
      · have := h1 d
        rw [List.count_cons] at this
        by_cases hd : e = d
        · subst hd; simp [List.count_append, List.count_singleton] at this ⊢; omega
        · simp [List.count_append, List.count_singleton, hd] at this ⊢; omega
      · simpa [syncOf] using h4
    | stop => simp at h0

theorem cnt_step {ask : List Nat} {s t : St} {a : Act} (hl : Life s) (h : Cnt ask s) (ha : step s a = some t) : Cnt (ask ++ asked [a]) t := by
  cases a with
  | start =>
    simp only [step] at ha
    simp only [asked, List.append_nil]
    split at ha <;> cases ha
    · exact h
    · refine h.same rfl rfl rfl rfl rfl ?_
      simp only
      split <;> rfl
  | call c ok =>
    simp only [step] at ha; cases ha
    simp only [asked]
    have hq : ((push s 0 (.sync c ok)).loops 0).q = (s.loops 0).q ++ [.sync c ok] := by simp [push, setLoop]
    refine ⟨fun e => ?_, fun hh => ⟨(h.eq hh).1, (h.eq hh).2.1, fun e => ?_⟩, h.ts, ?_⟩
    · rw [hq, List.count_append]; simpa [List.count_cons, push, setLoop] using h.le e
    · rw [hq, List.count_append]; simpa [List.count_cons, push, setLoop] using (h.eq hh).2.2 e
    · rw [hq, List.filterMap_append, h.calls]; simp [syncOf, push, setLoop]
  | post i k =>
    simp only [step] at ha
    simp only [asked, List.append_nil]
    split at ha <;> cases ha
    by_cases hi : i = 0
    · subst hi
      exact h.push (x := .work k) rfl (by simp) rfl rfl rfl rfl rfl (by simp [push, setLoop])
    · exact h.same rfl rfl rfl rfl rfl (by simp [push, setLoop, Ne.symm hi])
  | postBad i e =>
    simp only [step] at ha
    simp only [asked, List.append_nil]
    split at ha <;> cases ha
    by_cases hi : i = 0
    · subst hi
      exact h.push (x := .bad e) rfl (by simp) rfl rfl rfl rfl rfl (by simp [push, setLoop])
    · exact h.same rfl rfl rfl rfl rfl (by simp [push, setLoop, Ne.symm hi])
  | run i =>
    simp only [step] at ha
    simp only [asked, List.append_nil]
    split at ha <;> try cases ha
    split at ha <;> cases ha
    rename_i t rest hq
    by_cases h0 : i = 0
    · subst h0
      exact cnt_exec0 h hq hl.q0
    · rw [if_neg h0]
      have hs : Cnt ask (setLoop s i { s.loops i with q := rest }) := h.same rfl rfl rfl rfl rfl (by simp [setLoop, Ne.symm h0])
      generalize setLoop s i { s.loops i with q := rest } = u at *
      cases t with
      | sync c ok => exact hs
      | work k => exact hs.same rfl rfl rfl rfl rfl rfl
      | fwd e => exact hs
      | stop => exact hs.same rfl rfl rfl rfl rfl (by simp [execW, setLoop, Ne.symm h0])
      | bad e =>
        have hq : ((execW u i (.bad e)).loops 0).q = (u.loops 0).q ++ [.fwd e] := by simp [execW, push, setLoop]
        refine ⟨fun d => ?_, fun hh => ⟨(hs.eq hh).1, (hs.eq hh).2.1, fun d => ?_⟩, hs.ts, ?_⟩
        · rw [hq, List.count_append]
          have := hs.le d
          by_cases hd : e = d
          · subst hd; simp [execW, push, setLoop]; omega
          · simp [List.count_cons, execW, push, setLoop, hd]; omega
        · rw [hq, List.count_append, (hs.eq hh).2.2 d]
          simp [List.count_cons, execW, push, setLoop]
        · rw [hq, List.filterMap_append, hs.calls]; simp [syncOf, execW, push, setLoop]
  | timer e =>
    simp only [step] at ha
    simp only [asked, List.append_nil]
    split at ha <;> cases ha
    refine ⟨fun d => ?_, fun hh => (by cases hh), fun _ => .inr (by simp [dispError]), h.calls⟩
    have := h.le d
    simp only [dispError, List.count_append]
    omega
  | exit =>
    simp only [step] at ha
    simp only [asked, List.append_nil]
    split at ha <;> cases ha
    exact h.same rfl rfl rfl rfl rfl (by simp [setLoop])
  | quit i =>
    simp only [step] at ha
    simp only [asked, List.append_nil]
    split at ha <;> cases ha
    refine h.same rfl rfl rfl rfl rfl ?_
    simp only [setLoop]
    split
    · rename_i e; rw [← e]
    · rfl
  | user =>
    simp only [step] at ha
    simp only [asked, List.append_nil]
    split at ha <;> cases ha
    rename_i e rest hu
    refine ⟨fun d => ?_, fun hh => ?_, fun _ => .inl (by simp), h.calls⟩
    · have := h.le d
      rw [hu, List.count_cons] at this
      simp only [stopAll, List.count_append, List.count_singleton]
      simp only [show ¬ (1 ≤ 0 ∧ 0 < s.n) from by omega, if_false]
      omega
    · have := (h.eq hh).2.1; rw [hu] at this; cases this
  | stop =>
    simp only [step] at ha
    simp only [asked, List.append_nil]
    split at ha <;> cases ha
    · exact h
    · exact h.same rfl rfl rfl rfl rfl rfl
  | join =>
    simp only [step] at ha
    simp only [asked, List.append_nil]
    split at ha
    · split at ha <;> cases ha
      exact h.same rfl rfl rfl rfl rfl (by simp [stopAll])
    · split at ha <;> cases ha
      exact h.same rfl rfl rfl rfl rfl rfl
    · cases ha

theorem asked_cons (a : Act) (as : List Act) : asked (a :: as) = asked [a] ++ asked as := by cases a <;> rfl

theorem inv_run {as : List Act} : ∀ {ask : List Nat} {s t : St}, Life s → Cnt ask s → run s as = some t → Life t ∧ Cnt (ask ++ asked as) t := by
  induction as with
  | nil => intro ask s t h1 h2 hr; cases hr; simpa [asked] using ⟨h1, h2⟩
  | cons a as ih =>
    intro ask s t h1 h2 hr
    obtain ⟨u, hu, hr⟩ := Option.bind_eq_some_iff.mp hr
    have := ih (life_step h1 hu) (cnt_step h1 h2 hu) hr
    rwa [List.append_assoc, ← asked_cons] at this

/-! ### `stop` ends -/

theorem sum_le {f g : Nat → Nat} : ∀ n, (∀ i < n, f i ≤ g i) → ((List.range n).map f).sum ≤ ((List.range n).map g).sum
  | 0, _ => by simp
  | n + 1, h => by
    rw [List.range_succ, List.map_append, List.map_append, List.sum_append, List.sum_append]
    have h1 := sum_le n (fun i hi => h i (by omega))
    have h2 := h n (by omega)
    simp; omega

theorem sum_lt {f g : Nat → Nat} : ∀ n, (∀ i < n, f i ≤ g i) → ∀ j < n, f j < g j → ((List.range n).map f).sum < ((List.range n).map g).sum
  | 0, _, j, hj, _ => by omega
  | n + 1, h, j, hj, hlt => by
    rw [List.range_succ, List.map_append, List.map_append, List.sum_append, List.sum_append]
    have h2 := h n (by omega)
    by_cases e : j = n
    · subst e
      have h1 := sum_le j (fun i hi => h i (by omega))
      simp; omega
    · have h1 := sum_lt n (fun i hi => h i (by omega)) j (by omega) hlt
      simp; omega

theorem wait_push {l : Loop} {x : Task} (h : Doomed l) : wait { l with q := l.q ++ [x] } = wait l := by
  unfold wait
  rcases h with h | h | h
  · simp [h]
  · simp [h]
  · simp only [List.idxOf_append, if_pos h]

theorem wait_pop {l : Loop} {x : Task} {rest : List Task} (hq : l.q = x :: rest) (hx : x ≠ .stop) : wait { l with q := rest } ≤ wait l ∧
    (l.phase ≠ .ended → l.ending = false → wait { l with q := rest } < wait l) := by
  unfold wait
  have : l.q.idxOf Task.stop = rest.idxOf Task.stop + 1 := by
    rw [hq, List.idxOf_cons]; cases x <;> first | rfl | exact absurd rfl hx
  rw [this]
  refine ⟨?_, fun h1 h2 => ?_⟩
  · simp only
    split
    · omega
    · split <;> omega
  · simp only [if_neg h1, h2]
    simp

theorem wait_mono {s t : St} {a : Act} (h : Life s) (hpc : s.pc = .joinWorkers) (ha : step s a = some t) (i : Nat) (hi : i < s.n) :
    t.n = s.n ∧ wait (t.loops i) ≤ wait (s.loops i) := by
  obtain ⟨h0, hd⟩ := h.pc2 (.inl hpc)
  have hz : wait (s.loops 0) = 0 := by unfold wait; simp [h0]
  have h2 := h.two (by rw [hpc]; simp)
  have hpush : ∀ (j : Nat) (x : Task), wait ((push s j x).loops i) ≤ wait (s.loops i) := by
    intro j x
    simp only [push, setLoop]
    by_cases e : i = j
    · subst e
      rw [if_pos rfl]
      by_cases e0 : i = 0
      · subst e0; unfold wait; simp [h0]
      · exact Nat.le_of_eq (wait_push (hd i (by omega) hi))
    · rw [if_neg e]; exact Nat.le_refl _
  have hall : ∀ u : St, u.loops = s.loops → u.n = s.n → wait ((stopAll u).loops i) ≤ wait (s.loops i) := by
    intro u e1 e2
    simp only [stopAll, e1, e2]
    split
    · rename_i e; exact Nat.le_of_eq (wait_push (hd i e.1 hi))
    · exact Nat.le_refl _
  cases a with
  | start =>
    simp only [step] at ha
    rw [if_pos (by omega)] at ha
    cases ha; exact ⟨rfl, Nat.le_refl _⟩
  | call c ok => simp only [step] at ha; cases ha; exact ⟨rfl, hpush _ _⟩
  | post j k => simp only [step] at ha; split at ha <;> cases ha; exact ⟨rfl, hpush _ _⟩
  | postBad j k => simp only [step] at ha; split at ha <;> cases ha; exact ⟨rfl, hpush _ _⟩
  | run j =>
    simp only [step] at ha
    split at ha <;> try cases ha
    rename_i hj
    split at ha <;> cases ha
    rename_i x rest hq
    have hj0 : j ≠ 0 := by rintro rfl; rw [h0] at hj; cases hj.2
    rw [if_neg hj0]
    by_cases e : i = j
    · subst e
      cases x with
      | stop =>
        refine ⟨rfl, ?_⟩
        simp only [execW, setLoop, if_true]
        unfold wait
        simp only [hj.2]
        simp
        split <;> omega
      | work k =>
        refine ⟨rfl, ?_⟩
        simp only [execW, setLoop, if_true]
        exact (wait_pop hq (by simp)).1
      | bad e =>
        refine ⟨rfl, ?_⟩
        simp only [execW, setLoop, push, if_true, if_neg hj0]
        exact (wait_pop hq (by simp)).1
      | sync c ok =>
        refine ⟨rfl, ?_⟩
        simp only [execW, setLoop, if_true]
        exact (wait_pop hq (by simp)).1
      | fwd e =>
        refine ⟨rfl, ?_⟩
        simp only [execW, setLoop, if_true]
        exact (wait_pop hq (by simp)).1
    · cases x with
      | bad e' =>
        refine ⟨rfl, ?_⟩
        simp only [execW, setLoop, push, if_neg e]
        by_cases e0 : i = 0
        · subst e0; simp only [if_true, if_neg e]; unfold wait; simp [h0]
        · rw [if_neg e0]; exact Nat.le_refl _
      | _ =>
        refine ⟨rfl, ?_⟩
        simp only [execW, setLoop, if_neg e]
        exact Nat.le_refl _
  | timer e =>
    simp only [step] at ha
    rw [h0] at ha
    simp at ha
  | exit =>
    simp only [step] at ha
    rw [h0] at ha
    simp at ha
  | quit j =>
    simp only [step] at ha
    split at ha <;> cases ha
    refine ⟨rfl, ?_⟩
    simp only [setLoop]
    split
    · unfold wait; simp
    · exact Nat.le_refl _
  | user =>
    simp only [step] at ha
    split at ha <;> cases ha
    exact ⟨rfl, hall _ rfl rfl⟩
  | stop =>
    simp only [step] at ha
    rw [if_pos (by omega)] at ha
    cases ha; exact ⟨rfl, Nat.le_refl _⟩
  | join =>
    simp only [step, hpc] at ha
    split at ha <;> cases ha
    exact ⟨rfl, Nat.le_refl _⟩

theorem pc_step {s t : St} {a : Act} (ha : step s a = some t) : a ≠ .join → a ≠ .stop → t.pc = s.pc := by
  intro h1 h2
  cases a with
  | join => exact absurd rfl h1
  | stop => exact absurd rfl h2
  | run i =>
    simp only [step] at ha
    split at ha <;> try cases ha
    split at ha <;> cases ha
    rename_i x rest hq
    split
    · unfold exec0
      split <;> cases x <;> rfl
    · unfold execW
      cases x <;> rfl
  | user => simp only [step] at ha; split at ha <;> cases ha; rfl
  | start => simp only [step] at ha; split at ha <;> cases ha <;> rfl
  | call c ok => simp only [step] at ha; cases ha; rfl
  | post i k => simp only [step] at ha; split at ha <;> cases ha; rfl
  | postBad i k => simp only [step] at ha; split at ha <;> cases ha; rfl
  | timer e => simp only [step] at ha; split at ha <;> cases ha; rfl
  | exit => simp only [step] at ha; split at ha <;> cases ha; rfl
  | quit i => simp only [step] at ha; split at ha <;> cases ha; rfl

/-- The dispatcher does not get further from its end. -/
theorem disp_mono {s t : St} {a : Act} (h : Life s) (hpc : s.pc = .joinDisp) (ha : step s a = some t) :
    ((s.loops 0).phase = .ended → (t.loops 0).phase = .ended) ∧ ((s.loops 0).ending = true → (t.loops 0).ending = true) := by
  have h2 := h.two (by rw [hpc]; simp)
  cases a with
  | run i =>
    simp only [step] at ha
    split at ha <;> try cases ha
    split at ha <;> cases ha
    by_cases h0 : i = 0
    · subst h0
      by_cases hts : s.tstop = true
      · cases ‹Task› <;> simp [exec0, setLoop, hts]
      · cases ‹Task› <;> simp [exec0, setLoop, hts, dispError]
    · cases ‹Task› <;> simp [execW, setLoop, push, h0, Ne.symm h0]
  | start => simp only [step] at ha; rw [if_pos (by omega)] at ha; cases ha; exact ⟨id, id⟩
  | call c ok => simp only [step] at ha; cases ha; simp [push, setLoop]
  | post i k => simp only [step] at ha; split at ha <;> cases ha; simp only [push, setLoop]; split <;> simp_all
  | postBad i k => simp only [step] at ha; split at ha <;> cases ha; simp only [push, setLoop]; split <;> simp_all
  | timer e => simp only [step] at ha; split at ha <;> cases ha; exact ⟨id, id⟩
  | exit => simp only [step] at ha; split at ha <;> cases ha; simp [setLoop]
  | quit i => simp only [step] at ha; split at ha <;> cases ha; simp only [setLoop]; split <;> simp_all
  | user => simp only [step] at ha; split at ha <;> cases ha; simp [stopAll]
  | stop => simp only [step] at ha; rw [if_pos (by omega)] at ha; cases ha; exact ⟨id, id⟩
  | join =>
    simp only [step, hpc] at ha
    split at ha <;> cases ha
    simp [stopAll]

theorem left_mono {s t : St} {a : Act} (h : Life s) (hpc : s.pc = .joinDisp ∨ s.pc = .joinWorkers) (ha : step s a = some t) :
    Less (left t) (left s) ∨ left t = left s := by
  have h2 : s.sys = 2 := h.two (by rcases hpc with e | e <;> rw [e] <;> simp)
  rcases hpc with hpc | hpc
  · by_cases hj : a = .join
    · subst hj
      simp only [step, hpc] at ha
      split at ha <;> cases ha
      left; left
      simp [left, hpc]
    · have ht : t.pc = .joinDisp := by
        by_cases hs : a = .stop
        · subst hs; simp only [step] at ha; rw [if_pos (by omega)] at ha; cases ha; exact hpc
        · rw [pc_step ha hj hs, hpc]
      obtain ⟨g1, g2⟩ := disp_mono h hpc ha
      unfold left
      rw [ht, hpc]
      simp only [Less]
      by_cases e1 : (s.loops 0).phase = .ended
      · simp [e1, g1 e1]
      · by_cases e2 : (s.loops 0).ending = true
        · simp only [e1, e2, g2 e2, if_true, if_false]
          split <;> simp
        · simp only [e1, e2, if_false]
          split
          · simp
          · split <;> simp
  · by_cases hj : a = .join
    · subst hj
      simp only [step, hpc] at ha
      split at ha <;> cases ha
      left; right
      simp [left, hpc]
      omega
    · have ht : t.pc = .joinWorkers := by
        by_cases hs : a = .stop
        · subst hs; simp only [step] at ha; rw [if_pos (by omega)] at ha; cases ha; exact hpc
        · rw [pc_step ha hj hs, hpc]
      have hn : t.n = s.n := (wait_mono h hpc ha 0 h.npos).1
      have := sum_le (f := fun i => wait (t.loops i)) (g := fun i => wait (s.loops i)) s.n (fun i hi => (wait_mono h hpc ha i hi).2)
      unfold left
      rw [ht, hpc]
      simp only [Less, hn]
      rcases Nat.lt_or_eq_of_le this with g | g
      · left; right; simp; omega
      · right; rw [g]

theorem left_own {s : St} (h : Life s) (hpc : s.pc = .joinDisp ∨ s.pc = .joinWorkers) :
    ∃ a t, own a = true ∧ step s a = some t ∧ Less (left t) (left s) := by
  have h2 : s.sys = 2 := h.two (by rcases hpc with e | e <;> rw [e] <;> simp)
  have hruns : ∀ i < s.n, (s.loops i).phase ≠ .ended → (s.loops i).phase = .runs := by
    intro i hi he
    have := h.act (by omega) i hi
    cases hp : (s.loops i).phase
    · exact absurd hp this
    · rfl
    · exact absurd hp he
  rcases hpc with hpc | hpc
  · by_cases e1 : (s.loops 0).phase = .ended
    · refine ⟨.join, { stopAll s with pc := .joinWorkers }, rfl, by simp [step, hpc, e1], ?_⟩
      left; simp [left, hpc]
    · have hr := hruns 0 h.npos e1
      by_cases e2 : (s.loops 0).ending = true
      · refine ⟨.quit 0, setLoop s 0 { s.loops 0 with phase := .ended }, rfl, by simp only [step]; exact if_pos ⟨h.npos, hr, e2⟩, ?_⟩
        right
        simp [left, hpc, setLoop, e2, hr]
      · have he : s.exitReq = true := by
          rcases h.pc1 hpc with g | g
          · exact g
          · exact absurd g e2
        refine ⟨.exit, setLoop { s with exitReq := false } 0 { s.loops 0 with ending := true }, rfl,
          by simp only [step]; exact if_pos ⟨hr, he⟩, ?_⟩
        right
        simp [left, hpc, setLoop, e2, hr]
  · by_cases hall : ∀ i < s.n, (s.loops i).phase = .ended
    · refine ⟨.join, { s with pc := .finished }, rfl, by simp only [step, hpc]; exact if_pos hall, ?_⟩
      right; simp [left, hpc]; omega
    · obtain ⟨i, hi, he⟩ : ∃ i, i < s.n ∧ (s.loops i).phase ≠ .ended := by
        apply Classical.byContradiction
        intro hn
        apply hall
        intro i hi
        apply Classical.byContradiction
        exact fun e => hn ⟨i, hi, e⟩
      obtain ⟨h0, hd⟩ := h.pc2 (.inl hpc)
      have hi0 : i ≠ 0 := by rintro rfl; exact he h0
      have hr := hruns i hi he
      have key : ∀ (a : Act) (t : St), own a = true → a ≠ .join → step s a = some t → wait (t.loops i) < wait (s.loops i) →
          ∃ a t, own a = true ∧ step s a = some t ∧ Less (left t) (left s) := by
        intro a t ho hj ha hw
        have hns : a ≠ .stop := by rintro rfl; cases ho
        have ht : t.pc = .joinWorkers := by rw [pc_step ha hj hns, hpc]
        refine ⟨a, t, ho, ha, .inr ?_⟩
        have hn : t.n = s.n := (wait_mono h hpc ha 0 h.npos).1
        have := sum_lt (f := fun i => wait (t.loops i)) (g := fun i => wait (s.loops i)) s.n (fun i hi => (wait_mono h hpc ha i hi).2) i hi hw
        unfold left
        rw [ht, hpc]
        simp only [hn, true_and]
        omega
      by_cases hend : (s.loops i).ending = true
      · refine key (.quit i) (setLoop s i { s.loops i with phase := .ended }) rfl (by simp) (by simp only [step]; exact if_pos ⟨hi, hr, hend⟩) ?_
        simp [setLoop, wait, hr, hend]
      · have hst : Task.stop ∈ (s.loops i).q := by
          rcases hd i (by omega) hi with g | g | g
          · exact absurd g he
          · exact absurd g hend
          · exact g
        cases hq : (s.loops i).q with
        | nil => rw [hq] at hst; cases hst
        | cons x rest =>
          have hstep : step s (.run i) = some (execW (setLoop s i { s.loops i with q := rest }) i x) := by
            simp only [step]
            rw [if_pos ⟨hi, hr⟩, hq]
            simp only [if_neg hi0]
          refine key (.run i) _ rfl (by simp) hstep ?_
          by_cases hx : x = .stop
          · subst hx
            simp only [execW, setLoop, if_true]
            simp [wait, hr, hend]
            omega
          · have hp := (wait_pop hq hx).2 he (by simpa using hend)
            cases x with
            | stop => exact absurd rfl hx
            | bad e => simpa only [execW, setLoop, push, if_true, if_neg hi0] using hp
            | work k => simpa only [execW, setLoop, if_true] using hp
            | sync c ok => simpa only [execW, setLoop, if_true] using hp
            | fwd e => simpa only [execW, setLoop, if_true] using hp

end Sys
end Salticidae
