import Verif.Spec.Notify
import Verif.Lemmas.EvQueue
namespace Salticidae
namespace Notify
open Spec.Notify

theorem snoc_ind {α : Type} {P : List α → Prop} (nil : P []) (snoc : ∀ l x, P l → P (l ++ [x])) (l : List α) : P l := by
  have : ∀ l : List α, P l.reverse := by
    intro l
    induction l with
    | nil => exact nil
    | cons x l ih => rw [List.reverse_cons]; exact snoc _ _ ih
  simpa using this l.reverse

theorem pending_snoc_notify (ops : List Op) : Pending (ops ++ [.notify]) := ⟨ops, [], by simp, by simp⟩

theorem pending_snoc_reset (ops : List Op) : ¬ Pending (ops ++ [.reset]) := by
  rintro ⟨pre, post, h, hn⟩
  rcases List.eq_nil_or_concat post with rfl | ⟨q, x, rfl⟩
  · have := congrArg List.getLast? h; simp at this
  · rw [List.concat_eq_append, ← List.cons_append, ← List.append_assoc] at h
    have := (List.append_inj' h rfl).2
    simp at this
    subst this; simp at hn

theorem not_pending_nil : ¬ Pending [] := by rintro ⟨p, q, h, _⟩; simp at h

theorem evRun_snoc (ops : List Op) (o : Op) : evRun (ops ++ [o]) =
    ((evStep (evRun ops).1 o).1, (evRun ops).2 ++ (evStep (evRun ops).1 o).2.toList) := by simp [evRun]

theorem ev_readable (ops : List Op) : 0 < (evRun ops).1 ↔ Pending ops := by
  rcases List.eq_nil_or_concat ops with rfl | ⟨q, x, rfl⟩
  · simp [evRun, not_pending_nil]
  · rw [List.concat_eq_append, evRun_snoc]
    cases x
    · refine ⟨fun _ => pending_snoc_notify q, fun _ => ?_⟩
      simp only [evStep, evWrite]
      split
      · omega
      · have : counterMax = 2 ^ 64 - 2 := rfl
        omega
    · refine ⟨fun h => ?_, fun h => absurd h (pending_snoc_reset q)⟩
      simp only [evStep, evRead] at h
      split at h <;> (simp at h; try omega)

theorem evRun_resets (ops post : List Op) : ∃ l, (evRun (ops ++ post)).2 = (evRun ops).2 ++ l := by
  induction post using snoc_ind with
  | nil => exact ⟨[], by simp⟩
  | snoc q x ih =>
    obtain ⟨l, h⟩ := ih
    exact ⟨l ++ (evStep (evRun (ops ++ q)).1 x).2.toList, by rw [← List.append_assoc, evRun_snoc]; simp [h]⟩

theorem evRun_count (ops : List Op) : (evRun ops).2.length = ops.count .reset := by
  induction ops using snoc_ind with
  | nil => rfl
  | snoc q x ih => rw [evRun_snoc]; cases x <;> simp [evStep, ih]

/-! The pipe. -/

/-- `n` notifications are in the pipe. -/
structure PI (rd wr : List Byte) (cap n : Nat) (s : Pipe) : Prop where
  mem : s.mem = rd ++ wr
  r : s.rd = rd
  w : s.wr = wr
  cap : s.cap = cap
  stray : s.stray = []
  closed : s.closed = []
  buf : s.buf = (List.replicate n (rd ++ wr)).flatten

variable {rd wr : List Byte} {cap n : Nat} {s : Pipe}

theorem pi_make : PI rd wr cap 0 (Pipe.make rd wr cap) := ⟨rfl, rfl, rfl, rfl, rfl, rfl, rfl⟩

theorem PI.fds0 (h : PI rd wr cap n s) (hr : rd.length = 4) : s.fds 0 = rd := by simp [Pipe.fds, h.mem, ← hr]
theorem PI.fds1 (h : PI rd wr cap n s) (hr : rd.length = 4) (hw : wr.length = 4) : s.fds 1 = wr := by
  have : (rd ++ wr).drop 4 = wr := by rw [← hr, List.drop_left]
  rw [Pipe.fds, h.mem, Nat.mul_one, this, ← hw, List.take_length]
theorem PI.dummy (h : PI rd wr cap n s) (hr : rd.length = 4) (hw : wr.length = 4) : s.dummy = rd ++ wr := by
  rw [Pipe.dummy, h.mem, List.take_of_length_le]; simp [hr, hw]
theorem PI.len (h : PI rd wr cap n s) (hr : rd.length = 4) (hw : wr.length = 4) : s.buf.length = 8 * n := by
  rw [h.buf]; simp [hr, hw]; omega

theorem PI.write (h : PI rd wr cap n s) (hr : rd.length = 4) (hw : wr.length = 4) :
    (8 * n + 8 ≤ cap ∧ s.write.2 = .ok ∧ PI rd wr cap (n + 1) s.write.1) ∨ (cap < 8 * n + 8 ∧ s.write = (s, .blocked)) := by
  have e : s.fds 1 = s.wr := by rw [h.fds1 hr hw, h.w]
  have hl := h.len hr hw
  have hc := h.cap
  by_cases c : 8 * n + 8 ≤ cap
  · have c' : s.buf.length + 8 ≤ s.cap := by omega
    refine .inl ⟨c, by simp [Pipe.write, e, c'], ?_⟩
    simp only [Pipe.write, e, c', if_true]
    refine ⟨h.mem, h.r, h.w, h.cap, h.stray, h.closed, ?_⟩
    simp only
    rw [h.dummy hr hw, h.buf, List.replicate_succ', List.flatten_append]; simp
  · have c' : ¬ s.buf.length + 8 ≤ s.cap := by omega
    exact .inr ⟨by omega, by simp [Pipe.write, e, c']⟩

theorem PI.read (h : PI rd wr cap n s) (hr : rd.length = 4) (hw : wr.length = 4) :
    (n = 0 ∧ s.read = (s, .again)) ∨ (∃ m, n = m + 1 ∧ s.read.2 = .ok ∧ PI rd wr cap m s.read.1) := by
  have e : s.fds 0 = s.rd := by rw [h.fds0 hr, h.r]
  have hl := h.len hr hw
  cases n with
  | zero =>
    have : s.buf = [] := List.eq_nil_of_length_eq_zero (by omega)
    exact .inl ⟨rfl, by simp [Pipe.read, e, this]⟩
  | succ m =>
    have hb : s.buf ≠ [] := fun hb => by rw [hb] at hl; simp at hl
    refine .inr ⟨m, rfl, by simp [Pipe.read, e, hb], ?_⟩
    simp only [Pipe.read, e, hb, if_true, if_false]
    have hbuf : s.buf = (rd ++ wr) ++ (List.replicate m (rd ++ wr)).flatten := by rw [h.buf]; simp [List.replicate_succ]
    have h8 : (rd ++ wr).length = 8 := by simp [hr, hw]
    have ht : s.buf.take 8 = rd ++ wr := by rw [hbuf, ← h8, List.take_left]
    have hd : s.buf.drop 8 = (List.replicate m (rd ++ wr)).flatten := by rw [hbuf, ← h8, List.drop_left]
    refine ⟨?_, h.r, h.w, h.cap, h.stray, h.closed, hd⟩
    simp only
    rw [ht, h8, h.mem, List.drop_of_length_le (by omega)]; simp

theorem run_snoc (s : Pipe) (as : List Sys) (a : Sys) : s.run (as ++ [a]) =
    (((s.run as).1.step a).1, (s.run as).2 ++ [(a, ((s.run as).1.step a).2)]) := by
  induction as generalizing s with
  | nil => rfl
  | cons b as ih => simp [Pipe.run, ih]

/-- After a history: some number of notifications is in the pipe, and if no reset is going on it is not 0 exactly if there has been a write since. -/
theorem pi_run (hr : rd.length = 4) (hw : wr.length = 4) (as : List Sys) : ∃ n, PI rd wr cap n ((Pipe.make rd wr cap).run as).1 ∧
    (n : Int) = ((Pipe.make rd wr cap).run as).2.count (.write, .ok) - ((Pipe.make rd wr cap).run as).2.count (.read, .ok) ∧
    (∀ a, (a, Out.badFd) ∉ ((Pipe.make rd wr cap).run as).2) ∧
    (0 < n → PendingSys ((Pipe.make rd wr cap).run as).2) ∧
    (PendingSys ((Pipe.make rd wr cap).run as).2 → Quiet ((Pipe.make rd wr cap).run as).2 → 0 < n) := by
  induction as using snoc_ind with
  | nil => exact ⟨0, pi_make, by simp [Pipe.run], by simp [Pipe.run], by omega, by rintro ⟨p, q, h, _⟩; simp [Pipe.run] at h⟩
  | snoc as a ih =>
    obtain ⟨n, h, hc, hb, hp, hq⟩ := ih
    rw [run_snoc]
    generalize hlog : ((Pipe.make rd wr cap).run as).2 = log at *
    generalize ((Pipe.make rd wr cap).run as).1 = t at *
    cases a with
    | write =>
      rcases h.write hr hw with ⟨_, e, h'⟩ | ⟨_, e⟩
      · refine ⟨n + 1, h', ?_, ?_, ?_, fun _ _ => by omega⟩
        · simp only [Pipe.step, e]; simp; omega
        · intro a; simp only [Pipe.step, e]; simp [hb a]
        · intro _; exact ⟨log, [], by simp [Pipe.step, e], by simp⟩
      · simp only [Pipe.step, e]
        refine ⟨n, h, ?_, ?_, ?_, ?_⟩
        · simp; omega
        · intro a; simp [hb a]
        · intro hn
          obtain ⟨p, q, e, hm⟩ := hp hn
          exact ⟨p, q ++ [(.write, .blocked)], by simp [e], by simp [hm]⟩
        · rintro ⟨p, q, e, hm⟩ hQ
          rcases List.eq_nil_or_concat q with rfl | ⟨q, x, rfl⟩
          · have := (List.append_inj' e rfl).2; simp at this
          · rw [List.concat_eq_append] at e hm
            rw [← List.cons_append, ← List.append_assoc] at e
            obtain ⟨e1, e2⟩ := List.append_inj' e rfl
            refine hq ⟨p, q, e1, fun hx => hm (by simp [hx])⟩ (fun pre o post e3 hnone => hQ pre o (post ++ [(.write, .blocked)]) (by simp [e3]) (by simpa using hnone))
    | read =>
      rcases h.read hr hw with ⟨rfl, e⟩ | ⟨m, rfl, e, h'⟩
      · simp only [Pipe.step, e]
        refine ⟨0, h, ?_, ?_, by omega, ?_⟩
        · simp; omega
        · intro a; simp [hb a]
        · rintro ⟨p, q, e, hm⟩ _
          rcases List.eq_nil_or_concat q with rfl | ⟨q, x, rfl⟩
          · have := (List.append_inj' e rfl).2; simp at this
          · rw [List.concat_eq_append] at e hm
            rw [← List.cons_append, ← List.append_assoc] at e
            have := (List.append_inj' e rfl).2
            simp at this
            subst this; simp at hm
      · refine ⟨m, h', ?_, ?_, ?_, ?_⟩
        · simp only [Pipe.step, e]; simp; omega
        · intro a; simp only [Pipe.step, e]; simp [hb a]
        · intro _
          obtain ⟨p, q, e', hm⟩ := hp (by omega)
          exact ⟨p, q ++ [(.read, .ok)], by simp [Pipe.step, e, e'], by simp [hm]⟩
        · intro _ hQ
          have := hQ log t.read.2 [] (by simp only [Pipe.step]) (by simp)
          rw [e] at this; cases this

theorem reset_ends (hr : rd.length = 4) (hw : wr.length = 4) : ∀ (n k : Nat) (s : Pipe), PI rd wr cap n s → n < k →
    ∃ s', s.reset k = some (s', true) ∧ PI rd wr cap 0 s' := by
  intro n
  induction n with
  | zero =>
    intro k s h hk
    obtain ⟨k, rfl⟩ : ∃ m, k = m + 1 := ⟨k - 1, by omega⟩
    rcases h.read hr hw with ⟨_, e⟩ | ⟨m, e, _⟩
    · exact ⟨s, by simp [Pipe.reset, e], h⟩
    · cases e
  | succ n ih =>
    intro k s h hk
    obtain ⟨k, rfl⟩ : ∃ m, k = m + 1 := ⟨k - 1, by omega⟩
    rcases h.read hr hw with ⟨e, _⟩ | ⟨m, e, e2, h'⟩
    · cases e
    · cases e
      obtain ⟨s', e3, h3⟩ := ih k _ h' (by omega)
      exact ⟨s', by simp [Pipe.reset, e2, e3], h3⟩

end Notify

namespace EvQ
open Spec.Notify

variable {α : Type}

/-- How many notifications a callback may still cause: by the flag that it sets, and by its own. -/
def pot : CPc → Nat
  | .exch => 2
  | .func => 1
  | .notify => 1
  | _ => 0

def isN : PPc α → Bool
  | .notify => true
  | _ => false

/-- Notifications made, about to be made, and that may come. -/
def tok (s : St α) : Nat := s.fd + s.prods.countP isN + s.waitSig.toNat + (s.cons.map pot).sum

theorem countP_set {β : Type} (p : β → Bool) : ∀ (l : List β) (i : Nat) (x y : β), l[i]? = some x →
    (l.set i y).countP p + (p x).toNat = l.countP p + (p y).toNat
  | [], i, x, y, h => by simp at h
  | z :: l, 0, x, y, h => by
    simp at h; subst h
    simp only [List.set_cons_zero, List.countP_cons]
    cases p z <;> cases p y <;> simp <;> omega
  | z :: l, i + 1, x, y, h => by
    have := countP_set p l i x y (by simpa using h)
    simp only [List.set_cons_succ, List.countP_cons]
    omega

theorem sum_set {β : Type} (f : β → Nat) : ∀ (l : List β) (i : Nat) (x y : β), l[i]? = some x →
    ((l.set i y).map f).sum + f x = (l.map f).sum + f y
  | [], i, x, y, h => by simp at h
  | z :: l, 0, x, y, h => by
    simp at h; subst h
    simp only [List.set_cons_zero, List.map_cons, List.sum_cons]
    omega
  | z :: l, i + 1, x, y, h => by
    have := sum_set f l i x y (by simpa using h)
    simp only [List.set_cons_succ, List.map_cons, List.sum_cons]
    omega

theorem sum_pot_le (l : List CPc) : (l.map pot).sum ≤ 2 * l.length := by
  induction l with
  | nil => simp
  | cons c l ih =>
    have : pot c ≤ 2 := by cases c <;> simp [pot]
    simp only [List.map_cons, List.sum_cons, List.length_cons]; omega

theorem isN_le (s : St α) : s.prods.countP isN ≤ active s := by
  unfold active
  apply List.countP_mono_left
  intro x _ h
  cases x <;> simp [isN] at h ⊢

/-- A step makes no more of them, unless it has emptied the descriptor. -/
theorem tok_step {b : Bool} {s s' : St α} {a : Act α} (h : step b s a = some s') :
    s'.cons.length = s.cons.length ∧ (tok s' ≤ tok s ∨ s'.fd = 0) := by
  cases a with
  | call a => cases h; simp [tok, isN, List.countP_append]
  | prod i =>
    simp only [step] at h
    rcases hp : s.prods[i]? with _ | p
    · rw [hp] at h; cases h
    · rw [hp] at h
      cases p <;> simp only [Option.some.injEq, reduceCtorEq] at h <;> subst h <;> refine ⟨rfl, .inl ?_⟩ <;> simp only [tok]
      case enq a => have := countP_set isN _ i _ .exch hp; simp [isN] at this; omega
      case exch =>
        have := countP_set isN _ i _ (if s.waitSig then .notify else .done true) hp
        cases hw : s.waitSig <;> rw [hw] at this <;> simp [isN] at this ⊢ <;> omega
      case notify => have := countP_set isN _ i _ (.done true) hp; simp [isN] at this; omega
  | refuse i =>
    simp only [step] at h
    rcases hp : s.prods[i]? with _ | p
    · rw [hp] at h; cases h
    · rw [hp] at h
      cases p <;> simp only [Option.some.injEq, reduceCtorEq] at h
      subst h
      refine ⟨rfl, .inl ?_⟩
      simp only [tok]
      have := countP_set isN _ i _ (.done false) hp; simp [isN] at this; omega
  | fire j =>
    simp only [step] at h
    split at h <;> cases h
    rename_i hc
    refine ⟨by simp, .inl ?_⟩
    simp only [tok]
    have := sum_set pot _ j _ .reset hc.1; simp only [pot] at this; omega
  | cons j =>
    simp only [step] at h
    rcases hp : s.cons[j]? with _ | p
    · rw [hp] at h; cases h
    · rw [hp] at h
      cases p <;> simp only [reduceCtorEq] at h
      case reset =>
        split at h <;> cases h
        · refine ⟨by simp, .inl ?_⟩
          simp only [tok]
          have := sum_set pot _ j _ .idle hp; simp only [pot] at this; omega
        · exact ⟨by simp, .inr rfl⟩
      case exch =>
        cases h
        refine ⟨by simp, .inl ?_⟩
        simp only [tok]
        have := sum_set pot _ j _ .func hp; simp only [pot] at this
        have hw : s.waitSig.toNat ≤ 1 := by cases s.waitSig <;> simp
        simp only [Bool.toNat_true]
        omega
      case notify =>
        cases h
        refine ⟨by simp, .inl ?_⟩
        simp only [tok]
        have := sum_set pot _ j _ .idle hp; simp only [pot] at this; omega
  | deq j =>
    simp only [step] at h
    split at h <;> cases h
    exact ⟨rfl, .inl (Nat.le_refl _)⟩
  | empty j =>
    simp only [step] at h
    split at h <;> cases h
    rename_i hp _
    refine ⟨by simp, .inl ?_⟩
    simp only [tok]
    have := sum_set pot _ j _ .idle hp; simp only [pot] at this; omega
  | more j =>
    simp only [step] at h
    rcases hp : s.cons[j]? with _ | p
    · rw [hp] at h; cases h
    · rw [hp] at h
      cases p <;> simp only [Option.some.injEq, reduceCtorEq] at h
      subst h
      refine ⟨by simp, .inl ?_⟩
      simp only [tok]
      have := sum_set pot _ j _ .notify hp; simp only [pot] at this; omega

theorem tok_empty {s : St α} (h : s.fd = 0) : tok s ≤ active s + 1 + 2 * s.cons.length := by
  have h1 := isN_le s
  have h2 := sum_pot_le s.cons
  have h3 : s.waitSig.toNat ≤ 1 := by cases s.waitSig <;> simp
  simp only [tok]; omega

theorem stepPipe_cases {s s' : St α} {a : Act α} (h : stepPipe s a = some s') :
    step false s a = some s' ∨ ∃ j, a = .cons j ∧ s.cons[j]? = some .reset ∧ 0 < s.fd ∧ s' = { s with fd := s.fd - 1 } := by
  cases a with
  | cons j =>
    simp only [stepPipe] at h
    split at h
    · rename_i hc; cases h; exact .inr ⟨j, rfl, hc.1, hc.2, rfl⟩
    · exact .inl h
  | _ => exact .inl h

theorem tok_stepPipe {s s' : St α} {a : Act α} (h : stepPipe s a = some s') :
    s'.cons.length = s.cons.length ∧ (tok s' ≤ tok s ∨ s'.fd = 0) := by
  rcases stepPipe_cases h with h | ⟨j, _, _, _, rfl⟩
  · exact tok_step h
  · exact ⟨rfl, .inl (by simp only [tok]; omega)⟩

theorem tok_run {b : Bool} {M : Nat} : ∀ (as : List (Act α)) (s s' : St α), run b s as = some s' →
    (∀ n t, run b s (as.take n) = some t → active t ≤ M) → tok s ≤ M + 1 + 2 * s.cons.length →
    tok s' ≤ M + 1 + 2 * s.cons.length := by
  intro as
  induction as with
  | nil => intro s s' h _ ht; cases h; exact ht
  | cons a as ih =>
    intro s s' h hM ht
    simp only [run] at h
    rcases e : step b s a with _ | s1
    · rw [e] at h; cases h
    · rw [e] at h
      obtain ⟨hl, hc⟩ := tok_step e
      have hM1 : ∀ n t, run b s1 (as.take n) = some t → active t ≤ M :=
        fun n t ht => hM (n + 1) t (by simp [run, e, ht])
      have := ih s1 s' h hM1 (by
        rcases hc with hc | hc
        · omega
        · have h1 := tok_empty hc
          have h2 := hM1 0 s1 rfl
          omega)
      omega

theorem tok_runPipe {M : Nat} : ∀ (as : List (Act α)) (s s' : St α), runPipe s as = some s' →
    (∀ n t, runPipe s (as.take n) = some t → active t ≤ M) → tok s ≤ M + 1 + 2 * s.cons.length →
    tok s' ≤ M + 1 + 2 * s.cons.length := by
  intro as
  induction as with
  | nil => intro s s' h _ ht; cases h; exact ht
  | cons a as ih =>
    intro s s' h hM ht
    simp only [runPipe] at h
    rcases e : stepPipe s a with _ | s1
    · rw [e] at h; cases h
    · rw [e] at h
      obtain ⟨hl, hc⟩ := tok_stepPipe e
      have hM1 : ∀ n t, runPipe s1 (as.take n) = some t → active t ≤ M :=
        fun n t ht => hM (n + 1) t (by simp [runPipe, e, ht])
      have := ih s1 s' h hM1 (by
        rcases hc with hc | hc
        · omega
        · have h1 := tok_empty hc
          have h2 := hM1 0 s1 rfl
          omega)
      omega

theorem tok_init (k : Nat) : tok (init k : St α) = 1 ∧ (init k : St α).cons.length = k := by
  have : ((List.replicate k CPc.idle).map pot).sum = 0 := by
    induction k with
    | zero => rfl
    | succ k ih => simpa [List.replicate_succ, pot] using ih
  simp only [tok, init, this]; simp

/-- Who is responsible for the queue being looked at, with the pipe: also a reset that is going on. -/
structure InvP (s : St α) : Prop where
  sig : s.waitSig = false → 0 < s.fd ∨ .notify ∈ s.prods ∨ .exch ∈ s.cons ∨ .reset ∈ s.cons
  look : s.q ≠ [] → 0 < s.fd ∨ .notify ∈ s.prods ∨ .exch ∈ s.prods ∨
    .exch ∈ s.cons ∨ .reset ∈ s.cons ∨ .func ∈ s.cons ∨ .notify ∈ s.cons
  fifo : s.accepted = s.seen ++ s.q

theorem invP_init (k : Nat) : InvP (init k : St α) := ⟨by simp [init], by simp [init], rfl⟩

theorem invP_step {s s' : St α} {a : Act α} (hi : InvP s) (h : stepPipe s a = some s') : InvP s' := by
  obtain ⟨h1, h2, h3⟩ := hi
  rcases stepPipe_cases h with h | ⟨j, _, hj, _, rfl⟩
  case inr =>
    have hm := List.mem_of_getElem? hj
    exact ⟨fun _ => .inr (.inr (.inr hm)), fun _ => .inr (.inr (.inr (.inr (.inl hm)))), h3⟩
  have keepP : ∀ {i p q x}, s.prods[i]? = some p → x ∈ s.prods → x ≠ p → x ∈ s.prods.set i q := by
    intro i p q x hp hx hne
    obtain ⟨j, hj⟩ := List.mem_iff_getElem?.1 hx
    refine List.mem_iff_getElem?.2 ⟨j, ?_⟩
    rw [List.getElem?_set]
    by_cases e : i = j
    · subst e; rw [hp] at hj; cases hj; exact absurd rfl hne
    · rw [if_neg e]; exact hj
  have keepC : ∀ {i p q x}, s.cons[i]? = some p → x ∈ s.cons → x ≠ p → x ∈ s.cons.set i q := fun hp hx hne => mem_set_ne hp hx hne
  cases a with
  | call a =>
    cases h
    refine ⟨fun hw => ?_, fun hq => ?_, h3⟩
    · rcases h1 hw with h | h | h | h <;> simp [h]
    · rcases h2 hq with h | h | h | h | h | h | h <;> simp [h]
  | prod i =>
    simp only [step] at h
    rcases hp : s.prods[i]? with _ | p
    · rw [hp] at h; cases h
    · rw [hp] at h
      cases p <;> simp only [Option.some.injEq, reduceCtorEq] at h
      case enq a =>
        subst h
        refine ⟨fun hw => ?_, fun _ => .inr (.inr (.inl (mem_set_new hp))), by simp [h3]⟩
        rcases h1 hw with h | h | h
        · exact .inl h
        · exact .inr (.inl (keepP hp h (by simp)))
        · exact .inr (.inr h)
      case exch =>
        subst h
        have key : 0 < s.fd ∨ PPc.notify ∈ s.prods.set i (if s.waitSig then .notify else .done true) ∨ .exch ∈ s.cons ∨ .reset ∈ s.cons := by
          cases hw : s.waitSig with
          | true => exact .inr (.inl (mem_set_new hp))
          | false =>
            rcases h1 hw with h | h | h
            · exact .inl h
            · exact .inr (.inl (keepP hp h (by simp)))
            · exact .inr (.inr h)
        refine ⟨fun _ => key, fun _ => ?_, h3⟩
        rcases key with h | h | h | h
        · exact .inl h
        · exact .inr (.inl h)
        · exact .inr (.inr (.inr (.inl h)))
        · exact .inr (.inr (.inr (.inr (.inl h))))
      case notify =>
        subst h
        exact ⟨fun _ => .inl (by simp), fun _ => .inl (by simp), h3⟩
  | refuse i =>
    simp only [step] at h
    rcases hp : s.prods[i]? with _ | p
    · rw [hp] at h; cases h
    · rw [hp] at h
      cases p <;> simp only [Option.some.injEq, reduceCtorEq] at h
      subst h
      refine ⟨fun hw => ?_, fun hq => ?_, h3⟩
      · rcases h1 hw with h | h | h
        · exact .inl h
        · exact .inr (.inl (keepP hp h (by simp)))
        · exact .inr (.inr h)
      · rcases h2 hq with h | h | h | h
        · exact .inl h
        · exact .inr (.inl (keepP hp h (by simp)))
        · exact .inr (.inr (.inl (keepP hp h (by simp))))
        · exact .inr (.inr (.inr h))
  | fire j =>
    simp only [step] at h
    split at h <;> cases h
    rename_i hc
    exact ⟨fun _ => .inl hc.2, fun _ => .inl hc.2, h3⟩
  | cons j =>
    simp only [step] at h
    rcases hp : s.cons[j]? with _ | p
    · rw [hp] at h; cases h
    · rw [hp] at h
      cases p <;> simp only [reduceCtorEq] at h
      case reset =>
        simp only [Bool.false_and, Bool.false_eq_true, if_false] at h
        cases h
        exact ⟨fun _ => .inr (.inr (.inl (mem_set_new hp))), fun _ => .inr (.inr (.inr (.inl (mem_set_new hp)))), h3⟩
      case exch =>
        cases h
        exact ⟨fun h => by simp at h, fun _ => .inr (.inr (.inr (.inr (.inr (.inl (mem_set_new hp)))))), h3⟩
      case notify =>
        cases h
        exact ⟨fun _ => .inl (by simp), fun _ => .inl (by simp), h3⟩
  | deq j =>
    simp only [step] at h
    split at h <;> cases h
    rename_i a q hp hq
    refine ⟨h1, fun _ => .inr (.inr (.inr (.inr (.inr (.inl (List.mem_of_getElem? hp)))))), ?_⟩
    simp [h3, hq]
  | empty j =>
    simp only [step] at h
    split at h <;> cases h
    rename_i hp hq
    refine ⟨fun hw => ?_, fun hn => absurd hq hn, h3⟩
    rcases h1 hw with h | h | h | h
    · exact .inl h
    · exact .inr (.inl h)
    · exact .inr (.inr (.inl (keepC hp h (by simp))))
    · exact .inr (.inr (.inr (keepC hp h (by simp))))
  | more j =>
    simp only [step] at h
    rcases hp : s.cons[j]? with _ | p
    · rw [hp] at h; cases h
    · rw [hp] at h
      cases p <;> simp only [Option.some.injEq, reduceCtorEq] at h
      subst h
      refine ⟨fun hw => ?_, fun hq => .inr (.inr (.inr (.inr (.inr (.inr (mem_set_new hp)))))), h3⟩
      rcases h1 hw with h | h | h | h
      · exact .inl h
      · exact .inr (.inl h)
      · exact .inr (.inr (.inl (keepC hp h (by simp))))
      · exact .inr (.inr (.inr (keepC hp h (by simp))))

theorem invP_run : ∀ (as : List (Act α)) (s s' : St α), InvP s → runPipe s as = some s' → InvP s' := by
  intro as
  induction as with
  | nil => intro s s' hi h; cases h; exact hi
  | cons a as ih =>
    intro s s' hi h
    simp only [runPipe] at h
    rcases e : stepPipe s a with _ | s1
    · rw [e] at h; cases h
    · rw [e] at h; exact ih s1 s' (invP_step hi e) h

end EvQ
end Salticidae
