import Verif.Spec.Queue
/-!
What follows from a history being that of a queue.
-/
namespace Salticidae
namespace Spec.Queue
open Salticidae.Queue

variable {α : Type} [DecidableEq α]

theorem replay_induct {P : List (Ev α) → Q α → Prop} (h0 : P [] empty)
    (hs : ∀ l q e q', replay empty l = some q → P l q → after q e = some q' → P (l ++ [e]) q') :
    ∀ (l : List (Ev α)) q, replay empty l = some q → P l q := by
  intro l
  generalize hn : l.length = n
  induction n generalizing l with
  | zero =>
    intro q h
    cases l with
    | nil => cases h; exact h0
    | cons => simp at hn
  | succ n ih =>
    intro q h
    have hne : l ≠ [] := by intro e; rw [e] at hn; cases hn
    obtain ⟨l', e, rfl⟩ : ∃ l' e, l = l' ++ [e] := ⟨_, _, (List.dropLast_concat_getLast hne).symm⟩
    rw [replay_append] at h
    simp only [Option.bind_eq_some_iff, replay] at h
    obtain ⟨q1, h1, q2, h2, h3⟩ := h
    cases h3
    exact hs l' q1 e q h1 (ih l' (by simpa using hn) q1 h1) h2

/-- What one event does. -/
theorem after_cases {q q' : Q α} {e : Ev α} (h : after q e = some q') :
    (∃ i c, e = .call i c ∧ q.doing i = .nothing ∧ q' = q.set i (.called c)) ∨
    (∃ i x u, e = .enq i x ∧ q.doing i = .called (.enq x u) ∧ q' = { q.set i (.done .yes) with q := q.q ++ [x] }) ∨
    (∃ i x, e = .refuse i ∧ q.doing i = .called (.enq x false) ∧ q' = q.set i (.done .no)) ∨
    (∃ i x l, e = .take i ∧ (q.doing i = .called .deq ∨ q.doing i = .called .deqM) ∧ q.q = x :: l ∧ q' = { q.set i (.done (.val (some x))) with q := l }) ∨
    (∃ i, e = .empty i ∧ (q.doing i = .called .deq ∨ q.doing i = .called .deqM) ∧ q.q = [] ∧ q' = q.set i (.done .no)) ∨
    (∃ i x, e = .rewind i x ∧ q.doing i = .called (.rewind x) ∧ q' = { q.set i (.done .yes) with q := x :: q.q }) ∨
    (∃ i r, e = .ret i r ∧ (q.doing i = .done r ∨ q.doing i = .called .add ∧ r = .none) ∧ q' = q.set i .nothing) := by
  cases e <;> simp only [after] at h
  case call i c => left; split at h <;> cases h; exact ⟨i, c, rfl, by assumption, rfl⟩
  case enq i x =>
    right; left
    split at h
    · split at h
      · cases h; rename_i h1 h2; subst h2; exact ⟨i, x, _, rfl, h1, rfl⟩
      · cases h
    · cases h
  case refuse i => right; right; left; split at h <;> cases h; exact ⟨i, _, rfl, by assumption, rfl⟩
  case take i =>
    right; right; right; left
    split at h <;> cases h
    · rename_i h1 h2; exact ⟨i, _, _, rfl, .inl h1, h2, rfl⟩
    · rename_i h1 h2; exact ⟨i, _, _, rfl, .inr h1, h2, rfl⟩
  case empty i =>
    right; right; right; right; left
    split at h <;> cases h
    · rename_i h1 h2; exact ⟨i, rfl, .inl h1, h2, rfl⟩
    · rename_i h1 h2; exact ⟨i, rfl, .inr h1, h2, rfl⟩
  case rewind i x =>
    right; right; right; right; right; left
    split at h
    · split at h
      · cases h; rename_i h1 h2; subst h2; exact ⟨i, x, rfl, h1, rfl⟩
      · cases h
    · cases h
  case ret i r =>
    right; right; right; right; right; right
    split at h
    · split at h
      · cases h; rename_i h1 h2; subst h2; exact ⟨i, r, rfl, .inl h1, rfl⟩
      · cases h
    · split at h
      · cases h; rename_i h1 h2; exact ⟨i, r, rfl, .inr ⟨h1, h2⟩, rfl⟩
      · cases h
    · cases h

@[simp] theorem set_self (q : Q α) (i : Nat) (d : Doing α) : (q.set i d).doing i = d := by simp [Q.set]
theorem set_other (q : Q α) {i j : Nat} (d : Doing α) (h : j ≠ i) : (q.set i d).doing j = q.doing j := by simp [Q.set, h]
@[simp] theorem set_q (q : Q α) (i : Nat) (d : Doing α) : (q.set i d).q = q.q := rfl

/-- The value a thread has taken and not returned yet. -/
def pend : Doing α → List α
  | .done (.val (some x)) => [x]
  | _ => []

/-- Only thread c dequeues or rewinds. -/
def Only (c : Nat) (l : List (Ev α)) : Prop := ∀ i x, .call i x ∈ l → (x = .deq ∨ x = .deqM ∨ ∃ e, x = .rewind e) → i = c

/-- What threads other than the consumer are not doing. -/
def Doing.passive : Doing α → Prop
  | .called .deq | .called .deqM | .called (.rewind _) | .done (.val _) => False
  | _ => True

theorem passive_of_only {c : Nat} : ∀ (l : List (Ev α)) q, replay empty l = some q → Only c l → ∀ i, i ≠ c → (q.doing i).passive := by
  refine replay_induct (P := fun l q => Only c l → ∀ i, i ≠ c → (q.doing i).passive) ?_ ?_
  · intro _ i _; trivial
  · intro l q e q' _ ih ha ho i hi
    have ho' : Only c l := fun j x hx => ho j x (by simp [hx])
    have ih := ih ho' i hi
    rcases after_cases ha with ⟨j, x, rfl, h1, rfl⟩ | ⟨j, x, u, rfl, h1, rfl⟩ | ⟨j, x, rfl, h1, rfl⟩ | ⟨j, x, l', rfl, h1, h2, rfl⟩ | ⟨j, rfl, h1, h2, rfl⟩ | ⟨j, x, rfl, h1, rfl⟩ | ⟨j, r, rfl, h1, rfl⟩
    all_goals
      by_cases hij : i = j
      · subst hij
        simp only [Q.set, if_true]
        first
        | trivial
        | (rcases h1 with h1 | h1 <;> rw [h1] at ih <;> exact ih.elim)
        | (cases x <;> first | trivial | exact hi (ho i _ (List.mem_append_right _ (List.mem_singleton.mpr rfl)) (by simp)))
      · simp only [Q.set, hij, if_false]; exact ih

theorem fifo {c : Nat} : ∀ (l : List (Ev α)) q, replay empty l = some q → Only c l → (∀ i e, .call i (.rewind e) ∉ l) →
    enqueued l = dequeued l ++ pend (q.doing c) ++ q.q ∧ ∀ e, q.doing c ≠ .called (.rewind e) := by
  refine replay_induct (P := fun (l : List (Ev α)) (q : Q α) => Only c l → (∀ i e, .call i (.rewind e) ∉ l) →
    enqueued l = dequeued l ++ pend (q.doing c) ++ q.q ∧ ∀ e, q.doing c ≠ .called (.rewind e)) ?_ ?_
  · intro _ _; exact ⟨rfl, by intro e h; cases h⟩
  · intro l q e q' hl ih ha ho hr
    have ho' : Only c l := fun j x hx => ho j x (by simp [hx])
    have ih := ih ho' (fun i e hx => hr i e (by simp [hx]))
    have hp := passive_of_only l q hl ho'
    rcases after_cases ha with ⟨j, x, rfl, h1, rfl⟩ | ⟨j, x, u, rfl, h1, rfl⟩ | ⟨j, x, rfl, h1, rfl⟩ | ⟨j, x, l', rfl, h1, h2, rfl⟩ | ⟨j, rfl, h1, h2, rfl⟩ | ⟨j, x, rfl, h1, rfl⟩ | ⟨j, r, rfl, h1, rfl⟩
    · refine ⟨?_, ?_⟩
      · by_cases hjc : c = j
        · subst hjc; simp [enqueued, dequeued, pend] at ih ⊢; simp [h1, pend] at ih; exact ih
        · simpa [enqueued, dequeued, set_other _ _ hjc] using ih.1
      · intro e he
        by_cases hjc : c = j
        · subst hjc; simp at he; exact hr c e (by simp [he])
        · rw [set_other _ _ hjc] at he; exact ih.2 e he
    · refine ⟨?_, ?_⟩
      · by_cases hjc : c = j
        · subst hjc; simp [h1, pend] at ih; simp [enqueued, dequeued, pend, Q.set] at ih ⊢; rw [ih]; simp
        · have e1 : (if c = j then Doing.done .yes else q.doing c) = q.doing c := by rw [if_neg hjc]
          simp [enqueued, dequeued, Q.set, e1] at ih ⊢
          rw [ih.1]; simp
      · intro e he
        by_cases hjc : c = j
        · subst hjc; simp [Q.set] at he
        · simp [Q.set, hjc] at he; exact ih.2 e he
    · refine ⟨?_, ?_⟩
      · by_cases hjc : c = j
        · subst hjc; simp [h1, pend] at ih; simp [enqueued, dequeued, pend] at ih ⊢; exact ih
        · simpa [enqueued, dequeued, set_other _ _ hjc] using ih.1
      · intro e he
        by_cases hjc : c = j
        · subst hjc; simp at he
        · rw [set_other _ _ hjc] at he; exact ih.2 e he
    · have hjc : c = j := by
        refine Classical.byContradiction fun hx => ?_
        have := hp j (fun e => hx e.symm)
        rcases h1 with h1 | h1 <;> rw [h1] at this <;> exact this
      subst hjc
      refine ⟨?_, by intro e he; simp [Q.set] at he⟩
      have : pend (q.doing c) = [] := by rcases h1 with h1 | h1 <;> rw [h1] <;> rfl
      rw [this, h2] at ih
      simpa [enqueued, dequeued, pend, Q.set] using ih.1
    · have hjc : c = j := by
        refine Classical.byContradiction fun hx => ?_
        have := hp j (fun e => hx e.symm)
        rcases h1 with h1 | h1 <;> rw [h1] at this <;> exact this
      subst hjc
      refine ⟨?_, by intro e he; simp [Q.set] at he⟩
      have : pend (q.doing c) = [] := by rcases h1 with h1 | h1 <;> rw [h1] <;> rfl
      rw [this] at ih
      simpa [enqueued, dequeued, pend, Q.set] using ih.1
    · exfalso
      by_cases hjc : c = j
      · subst hjc; exact ih.2 x h1
      · have := hp j (fun e => hjc e.symm)
        rw [h1] at this; exact this
    · by_cases hjc : c = j
      · subst hjc
        refine ⟨?_, by intro e he; simp at he⟩
        rcases h1 with h1 | h1
        · rw [h1] at ih
          cases r with
          | val v =>
            cases v with
            | none => simpa [enqueued, dequeued, pend] using ih.1
            | some x => simpa [enqueued, dequeued, pend] using ih.1
          | _ => simpa [enqueued, dequeued, pend] using ih.1
        · rw [h1.1] at ih
          rw [h1.2]
          simpa [enqueued, dequeued, pend] using ih.1
      · refine ⟨?_, by intro e he; rw [set_other _ _ hjc] at he; exact ih.2 e he⟩
        rw [set_other _ _ hjc]
        have hv : ∀ v, r ≠ .val v := by
          intro v hv
          have := hp j (fun e => hjc e.symm)
          rcases h1 with h1 | h1
          · rw [h1, hv] at this; exact this
          · rw [hv] at h1; cases h1.2
        cases r with
        | val v => exact absurd rfl (hv v)
        | _ => simpa [enqueued, dequeued] using ih.1

/-- Nothing is lost, invented or duplicated: what went in is what came out, what is still inside, and what has
been taken by dequeues that have not returned (ps: at most one value per thread). -/
theorem conserve : ∀ (l : List (Ev α)) q, replay empty l = some q → ∃ ps : List (Nat × α),
    (∀ i x, (i, x) ∈ ps ↔ q.doing i = .done (.val (some x))) ∧ (ps.map (·.1)).Nodup ∧
    (enqueued l ++ rewound l).Perm (dequeued l ++ ps.map (·.2) ++ q.q) := by
  refine replay_induct ?_ ?_
  · exact ⟨[], by simp [empty], by simp, by simp [enqueued, rewound, dequeued, empty]⟩
  · intro l q e q' hl ih ha
    obtain ⟨ps, h1, h2, h3⟩ := ih
    -- a thread that has no taken value before or after
    have same : ∀ (j : Nat) (d : Doing α), (∀ x, q.doing j ≠ .done (.val (some x))) → (∀ x, d ≠ .done (.val (some x))) →
        ∀ i x, (i, x) ∈ ps ↔ (q.set j d).doing i = .done (.val (some x)) := by
      intro j d hj hd i x
      by_cases hij : i = j
      · subst hij; rw [h1]; simp only [set_self]; exact ⟨fun h => absurd h (hj x), fun h => absurd h (hd x)⟩
      · rw [set_other _ _ hij, h1]
    rcases after_cases ha with ⟨j, x, rfl, g1, rfl⟩ | ⟨j, x, u, rfl, g1, rfl⟩ | ⟨j, x, rfl, g1, rfl⟩ | ⟨j, x, l', rfl, g1, g2, rfl⟩ | ⟨j, rfl, g1, g2, rfl⟩ | ⟨j, x, rfl, g1, rfl⟩ | ⟨j, r, rfl, g1, rfl⟩
    · exact ⟨ps, same j _ (by simp [g1]) (by simp), h2, by simpa [enqueued, rewound, dequeued] using h3⟩
    · refine ⟨ps, same j _ (by simp [g1]) (by simp), h2, ?_⟩
      have e1 : enqueued (l ++ [.enq j x]) = enqueued l ++ [x] := by simp [enqueued]
      have e2 : rewound (l ++ [.enq j x]) = rewound l := by simp [rewound]
      have e3 : dequeued (l ++ [.enq j x]) = dequeued l := by simp [dequeued]
      rw [e1, e2, e3]
      simp only
      rw [← List.append_assoc]
      refine List.Perm.trans ?_ (h3.append_right [x])
      rw [List.append_assoc, List.append_assoc]
      exact (List.perm_append_comm).append_left _
    · exact ⟨ps, same j _ (by simp [g1]) (by simp), h2, by simpa [enqueued, rewound, dequeued] using h3⟩
    · have hn : ∀ y, q.doing j ≠ .done (.val (some y)) := by intro y; rcases g1 with g1 | g1 <;> rw [g1] <;> simp
      refine ⟨(j, x) :: ps, ?_, ?_, ?_⟩
      · intro i y
        by_cases hij : i = j
        · subst hij
          have : (i, y) ∉ ps := fun h => hn y ((h1 i y).mp h)
          simp [Q.set, this, eq_comm]
        · simp [Q.set, hij, h1]
      · simp only [List.map_cons, List.nodup_cons]
        refine ⟨?_, h2⟩
        intro hm
        obtain ⟨⟨a, b⟩, hab, e⟩ := List.mem_map.mp hm
        simp only at e; subst e
        exact hn b ((h1 a b).mp hab)
      · have e1 : enqueued (l ++ [.take j]) = enqueued l := by simp [enqueued]
        have e2 : rewound (l ++ [.take j]) = rewound l := by simp [rewound]
        have e3 : dequeued (l ++ [.take j]) = dequeued l := by simp [dequeued]
        rw [e1, e2, e3]
        refine h3.trans ?_
        rw [g2]
        simp only [List.map_cons, List.append_assoc]
        exact (List.perm_middle).append_left _
    · exact ⟨ps, same j _ (by rcases g1 with g1 | g1 <;> simp [g1]) (by simp), h2, by simpa [enqueued, rewound, dequeued] using h3⟩
    · refine ⟨ps, same j _ (by simp [g1]) (by simp), h2, ?_⟩
      have e1 : enqueued (l ++ [.rewind j x]) = enqueued l := by simp [enqueued]
      have e2 : rewound (l ++ [.rewind j x]) = rewound l ++ [x] := by simp [rewound]
      have e3 : dequeued (l ++ [.rewind j x]) = dequeued l := by simp [dequeued]
      rw [e1, e2, e3]
      simp only
      rw [← List.append_assoc]
      refine (h3.append_right [x]).trans ?_
      rw [List.append_assoc]
      refine List.Perm.append_left _ ?_
      exact List.perm_append_comm
    · by_cases hv : ∃ x, r = .val (some x)
      · obtain ⟨x, rfl⟩ := hv
        have g : q.doing j = .done (.val (some x)) := by
          rcases g1 with g1 | g1
          · exact g1
          · cases g1.2
        have hm : (j, x) ∈ ps := (h1 j x).mpr g
        obtain ⟨a, b, rfl⟩ := List.append_of_mem hm
        have hnd := h2
        simp only [List.map_append, List.map_cons, List.nodup_append, List.nodup_cons] at hnd
        refine ⟨a ++ b, ?_, ?_, ?_⟩
        · intro i y
          by_cases hij : i = j
          · subst hij
            simp only [set_self]
            refine ⟨fun h => ?_, fun h => by cases h⟩
            exfalso
            rcases List.mem_append.mp h with h | h
            · exact hnd.2.2 i (List.mem_map.mpr ⟨_, h, rfl⟩) i (by simp) rfl
            · exact hnd.2.1.1 (List.mem_map.mpr ⟨_, h, rfl⟩)
          · rw [set_other _ _ hij, ← h1]
            simp [hij]
        · simp only [List.map_append, List.nodup_append]
          exact ⟨hnd.1, hnd.2.1.2, fun u hu w hw => hnd.2.2 u hu w (by simp [hw])⟩
        · have e1 : enqueued (l ++ [.ret j (.val (some x))]) = enqueued l := by simp [enqueued]
          have e2 : rewound (l ++ [.ret j (.val (some x))]) = rewound l := by simp [rewound]
          have e3 : dequeued (l ++ [.ret j (.val (some x))]) = dequeued l ++ [x] := by simp [dequeued]
          rw [e1, e2, e3]
          refine h3.trans ?_
          simp only [List.map_append, List.map_cons, List.append_assoc, List.cons_append, List.nil_append, set_q]
          exact (List.perm_middle).append_left _
      · refine ⟨ps, same j _ ?_ (by simp), h2, ?_⟩
        · intro x hx
          rcases g1 with g1 | g1
          · rw [g1] at hx; exact hv ⟨x, by cases hx; rfl⟩
          · rw [g1.1] at hx; cases hx
        · cases r with
          | val v => cases v with
            | none => simpa [enqueued, rewound, dequeued] using h3
            | some x => exact absurd ⟨x, rfl⟩ hv
          | _ => simpa [enqueued, rewound, dequeued] using h3

theorem ofThread_append (i : Nat) (a b : List (Ev α)) : ofThread i (a ++ b) = ofThread i a ++ ofThread i b := by
  simp [ofThread]

/-- A thread's calls and returns alternate, and say what it is doing. -/
theorem thread_doing (i : Nat) : ∀ (l : List (Ev α)) q, replay empty l = some q →
    (q.doing i = .nothing ∧ ∀ c, (ofThread i l).getLast? ≠ some (.call i c)) ∨
    (q.doing i ≠ .nothing ∧ ∃ c, (ofThread i l).getLast? = some (.call i c)) := by
  refine replay_induct ?_ ?_
  · left; exact ⟨rfl, by simp [ofThread]⟩
  · intro l q e q' hl ih ha
    rw [ofThread_append]
    rcases after_cases ha with ⟨j, x, rfl, g1, rfl⟩ | ⟨j, x, u, rfl, g1, rfl⟩ | ⟨j, x, rfl, g1, rfl⟩ | ⟨j, x, l', rfl, g1, g2, rfl⟩ | ⟨j, rfl, g1, g2, rfl⟩ | ⟨j, x, rfl, g1, rfl⟩ | ⟨j, r, rfl, g1, rfl⟩
    all_goals
      by_cases hij : i = j
      · subst hij
        simp [ofThread, Q.set] at ih ⊢
        try
          first
          | (rw [g1] at ih; simpa using ih)
          | (rcases g1 with g1 | g1 <;> rw [g1] at ih <;> simpa using ih)
      · have hji : ¬ j = i := fun e => hij e.symm
        simpa [ofThread, Q.set, hij, hji] using ih

theorem quiet_doing {l : List (Ev α)} {q : Q α} (h : replay empty l = some q) (hq : Quiet l) (i : Nat) : q.doing i = .nothing := by
  rcases thread_doing i l q h with ⟨h1, _⟩ | ⟨_, c, hc⟩
  · exact h1
  · exact absurd hc (hq i c)

/-- In a quiet history what went in is what came out and what is inside. -/
theorem conserve_quiet {l : List (Ev α)} {q : Q α} (h : replay empty l = some q) (hq : Quiet l) :
    (enqueued l ++ rewound l).Perm (dequeued l ++ q.q) := by
  obtain ⟨ps, h1, _, h3⟩ := conserve l q h
  have : ps = [] := by
    cases ps with
    | nil => rfl
    | cons a b =>
      have := (h1 a.1 a.2).mp (by simp)
      rw [quiet_doing h hq] at this; cases this
  rw [this] at h3
  simpa using h3

/-- A dequeue that runs alone and finds nothing: the queue was empty. -/
theorem alone_empty {q q' : Q α} {i : Nat} {c : Call α} {mid : List (Ev α)} (hc : c = .deq ∨ c = .deqM)
    (hm : ∀ e ∈ mid, threadOf e = i) (hm' : ofThread i mid = [])
    (h : replay q (.call i c :: mid ++ [.ret i .no]) = some q') : q.q = [] := by
  rw [List.cons_append, replay] at h
  simp only [Option.bind_eq_some_iff] at h
  obtain ⟨q1, h1, h⟩ := h
  rcases after_cases h1 with ⟨j, x, e, g1, rfl⟩ | ⟨j, x, u, e, _⟩ | ⟨j, x, e, _⟩ | ⟨j, x, l', e, _⟩ | ⟨j, e, _⟩ | ⟨j, x, e, _⟩ | ⟨j, r, e, _⟩ <;> cases e
  cases mid with
  | nil =>
    simp only [List.nil_append, replay, Option.bind_eq_some_iff] at h
    obtain ⟨q2, h2, _⟩ := h
    rcases hc with rfl | rfl <;> simp [after, Q.set] at h2
  | cons e1 mid =>
    rw [List.cons_append, replay] at h
    simp only [Option.bind_eq_some_iff] at h
    obtain ⟨q2, h2, h⟩ := h
    have ht := hm e1 (by simp)
    clear g1
    have key : ∀ (q : Q α) (r : Ret α), q.doing i = .done r → replay q (mid ++ [.ret i .no]) = some q' → r = .no := by
      intro q r hd hr
      cases mid with
      | nil =>
        simp only [List.nil_append, replay, Option.bind_eq_some_iff] at hr
        obtain ⟨q3, h3, _⟩ := hr
        simp [after, hd] at h3
        exact h3.1.symm
      | cons e2 mid =>
        rw [List.cons_append, replay] at hr
        simp only [Option.bind_eq_some_iff] at hr
        obtain ⟨q3, h3, hr⟩ := hr
        have ht2 := hm e2 (by simp)
        rcases after_cases h3 with ⟨j, x, rfl, g1, rfl⟩ | ⟨j, x, u, rfl, g1, rfl⟩ | ⟨j, x, rfl, g1, rfl⟩ | ⟨j, x, l', rfl, g1, g2, rfl⟩ | ⟨j, rfl, g1, g2, rfl⟩ | ⟨j, x, rfl, g1, rfl⟩ | ⟨j, r', rfl, g1, rfl⟩
        all_goals
          simp only [threadOf] at ht2
          subst ht2
          rw [hd] at g1
        all_goals first
          | cases g1; done
          | (rcases g1 with g1 | g1 <;> cases g1 ; done)
          | (exfalso; cases e1 <;> simp [ofThread] at hm')
    rcases after_cases h2 with ⟨j, x, rfl, g1, rfl⟩ | ⟨j, x, u, rfl, g1, rfl⟩ | ⟨j, x, rfl, g1, rfl⟩ | ⟨j, x, l', rfl, g1, g2, rfl⟩ | ⟨j, rfl, g1, g2, rfl⟩ | ⟨j, x, rfl, g1, rfl⟩ | ⟨j, r', rfl, g1, rfl⟩
    all_goals
      simp only [threadOf] at ht
      subst ht
      simp only [set_self] at g1
    · cases g1
    · cases g1; rcases hc with hc | hc <;> cases hc
    · cases g1; rcases hc with hc | hc <;> cases hc
    · have := key _ (.val (some x)) (by simp [Q.set]) h
      cases this
    · exact g2
    · cases g1; rcases hc with hc | hc <;> cases hc
    · simp [ofThread] at hm'

theorem acceptedIn_append : ∀ (p s : List (Ev α)), (∀ i c, p.getLast? ≠ some (.call i c)) →
    acceptedIn (p ++ s) = acceptedIn p ++ acceptedIn s := by
  intro p
  fun_induction acceptedIn p with
  | case1 i e u j l ih =>
    intro s h
    simp only [List.cons_append, acceptedIn]
    congr 1
    apply ih
    intro a c hc
    apply h a c
    cases l with
    | nil => simp at hc
    | cons x l => simpa [List.getLast?_cons_cons] using hc
  | case2 x l hx ih =>
    intro s h
    cases l with
    | nil =>
      cases x with
      | call i c => exact absurd rfl (h i c)
      | _ => simp [acceptedIn]
    | cons y l =>
      have e1 : acceptedIn (x :: (y :: l) ++ s) = acceptedIn (y :: l ++ s) := by
        simp only [List.cons_append]
        rw [acceptedIn.eq_2]
        intro i e u j l' h1 h2
        cases h2
        exact hx i e u j l h1 rfl
      rw [e1]
      apply ih
      intro a c hc
      exact h a c (by simpa [List.getLast?_cons_cons] using hc)
  | case3 => intro s _; simp

/-- The enqueues of a thread that have returned true, in its program order, are those that took effect; at most its
last one has taken effect without returning. -/
theorem program_order (i : Nat) : ∀ (l : List (Ev α)) q, replay empty l = some q →
    match q.doing i with
    | .nothing => enqueuedBy i l = accepted i l ∧ ∀ j c, (ofThread i l).getLast? ≠ some (.call j c)
    | .called c => ∃ p, ofThread i l = p ++ [.call i c] ∧ (∀ j c, p.getLast? ≠ some (.call j c)) ∧ enqueuedBy i l = acceptedIn p
    | .done r => ∃ p c, ofThread i l = p ++ [.call i c] ∧ (∀ j c, p.getLast? ≠ some (.call j c)) ∧
        ((∃ e u, r = .yes ∧ c = .enq e u ∧ enqueuedBy i l = acceptedIn p ++ [e]) ∨
          (r = .yes → ∀ e u, c ≠ .enq e u) ∧ enqueuedBy i l = acceptedIn p) := by
  refine replay_induct ?_ ?_
  · exact ⟨rfl, by simp [ofThread]⟩
  · intro l q e q' hl ih ha
    have off : ∀ j, i ≠ j → threadOf e = j → ofThread i (l ++ [e]) = ofThread i l ∧ enqueuedBy i (l ++ [e]) = enqueuedBy i l := by
      intro j hj ht
      have hj' : ¬ j = i := fun e => hj e.symm
      cases e <;> simp only [threadOf] at ht <;> subst ht <;> simp [ofThread, enqueuedBy, hj']
    rw [ofThread_append] at *
    rcases after_cases ha with ⟨j, x, rfl, g1, rfl⟩ | ⟨j, x, u, rfl, g1, rfl⟩ | ⟨j, x, rfl, g1, rfl⟩ | ⟨j, x, l', rfl, g1, g2, rfl⟩ | ⟨j, rfl, g1, g2, rfl⟩ | ⟨j, x, rfl, g1, rfl⟩ | ⟨j, r, rfl, g1, rfl⟩
    all_goals
      by_cases hij : i = j
      rotate_left
      · obtain ⟨o1, o2⟩ := off j hij rfl
        simp only [accepted]
        rw [ofThread_append, o1, o2]
        simpa only [Q.set, hij, if_false, accepted] using ih
      subst hij
      simp only [Q.set, if_true]
      try rw [g1] at ih
      try simp only at ih
    · refine ⟨_, by simp [ofThread], ih.2, ?_⟩
      simpa [enqueuedBy, accepted] using ih.1
    · obtain ⟨p, h1, h2, h3⟩ := ih
      refine ⟨p, _, by simpa [ofThread] using h1, h2, .inl ⟨x, u, trivial, rfl, ?_⟩⟩
      rw [← h3]; simp [enqueuedBy]
    · obtain ⟨p, h1, h2, h3⟩ := ih
      refine ⟨p, _, by simpa [ofThread] using h1, h2, .inr ⟨by simp, ?_⟩⟩
      rw [← h3]; simp [enqueuedBy]
    · rcases g1 with g1 | g1 <;> rw [g1] at ih <;> obtain ⟨p, h1, h2, h3⟩ := ih
      all_goals
        refine ⟨p, _, by simpa [ofThread] using h1, h2, .inr ⟨by simp, ?_⟩⟩
        rw [← h3]; simp [enqueuedBy]
    · rcases g1 with g1 | g1 <;> rw [g1] at ih <;> obtain ⟨p, h1, h2, h3⟩ := ih
      all_goals
        refine ⟨p, _, by simpa [ofThread] using h1, h2, .inr ⟨by simp, ?_⟩⟩
        rw [← h3]; simp [enqueuedBy]
    · obtain ⟨p, h1, h2, h3⟩ := ih
      refine ⟨p, _, by simpa [ofThread] using h1, h2, .inr ⟨by simp, ?_⟩⟩
      rw [← h3]; simp [enqueuedBy]
    · rcases g1 with g1 | g1
      · rw [g1] at ih
        obtain ⟨p, c, h1, h2, h3⟩ := ih
        refine ⟨?_, by simp [ofThread]⟩
        have e1 : accepted i (l ++ [.ret i r]) = acceptedIn p ++ acceptedIn [.call i c, .ret i r] := by
          rw [accepted, ofThread_append, h1, ← acceptedIn_append p _ h2]; simp [ofThread]
        have e2 : enqueuedBy i (l ++ [.ret i r]) = enqueuedBy i l := by simp [enqueuedBy]
        rw [e1, e2]
        rcases h3 with ⟨e, u, rfl, rfl, h4⟩ | ⟨h3, h4⟩
        · rw [h4]; rfl
        · rw [h4]
          have : acceptedIn [.call i c, .ret i r] = [] := by
            cases c with
            | enq e u =>
              cases r with
              | yes => exact absurd rfl (h3 rfl e u)
              | _ => simp [acceptedIn]
            | _ => simp [acceptedIn]
          simp [this]
      · rw [g1.1] at ih
        obtain ⟨p, h1, h2, h3⟩ := ih
        refine ⟨?_, by simp [ofThread]⟩
        have e1 : accepted i (l ++ [.ret i r]) = acceptedIn p ++ acceptedIn [.call i .add, .ret i r] := by
          rw [accepted, ofThread_append, h1, ← acceptedIn_append p _ h2]; simp [ofThread]
        have e2 : enqueuedBy i (l ++ [.ret i r]) = enqueuedBy i l := by simp [enqueuedBy]
        rw [e1, e2, h3]
        simp [acceptedIn]

/-- In a quiet history the enqueues of a thread that took effect are those that returned true, in program order. -/
theorem program_order_quiet {l : List (Ev α)} {q : Q α} (h : replay empty l = some q) (hq : Quiet l) (i : Nat) :
    enqueuedBy i l = accepted i l := by
  have := program_order i l q h
  rw [quiet_doing h hq] at this
  exact this.1

/-- At any point those that returned true are an initial part of those that took effect, and at most one more. -/
theorem program_order_prefix {l : List (Ev α)} {q : Q α} (h : replay empty l = some q) (i : Nat) :
    enqueuedBy i l = accepted i l ∨ ∃ e, enqueuedBy i l = accepted i l ++ [e] := by
  have hp := program_order i l q h
  have last : ∀ (p : List (Ev α)) c, (∀ j c, p.getLast? ≠ some (.call j c)) → acceptedIn (p ++ [.call i c]) = acceptedIn p := by
    intro p c hh
    rw [acceptedIn_append p _ hh]
    cases c <;> simp [acceptedIn]
  split at hp
  · exact .inl hp.1
  · obtain ⟨p, h1, h2, h3⟩ := hp
    left; rw [h3, accepted, h1, last p _ h2]
  · obtain ⟨p, c, h1, h2, h3⟩ := hp
    rcases h3 with ⟨e, u, _, rfl, h3⟩ | ⟨_, h3⟩
    · right; exact ⟨e, by rw [h3, accepted, h1, last p _ h2]⟩
    · left; rw [h3, accepted, h1, last p _ h2]

/-- The elements of one thread's enqueues keep their order in the whole. -/
theorem enqueuedBy_sublist (i : Nat) (l : List (Ev α)) : (enqueuedBy i l).Sublist (enqueued l) := by
  induction l with
  | nil => simp [enqueuedBy, enqueued]
  | cons e l ih =>
    cases e with
    | enq j x =>
      by_cases h : j = i
      · simpa [enqueuedBy, enqueued, h] using ih
      · simpa [enqueuedBy, enqueued, h] using ih.cons x
    | _ => simpa [enqueuedBy, enqueued] using ih

/-- Every enqueue that took effect is some thread's. -/
theorem enqueuedBy_mem {x : α} {l : List (Ev α)} (h : x ∈ enqueued l) : ∃ i, x ∈ enqueuedBy i l := by
  simp only [enqueued, List.mem_filterMap] at h
  obtain ⟨e, he, hx⟩ := h
  cases e with
  | enq j y => cases hx; exact ⟨j, by simp only [enqueuedBy, List.mem_filterMap]; exact ⟨_, he, by simp⟩⟩
  | _ => cases hx

/-- Every enqueue that took effect is one of its thread. -/
theorem enqueued_perm {l : List (Ev α)} {n : Nat} (h : ∀ e ∈ l, threadOf e < n) :
    (enqueued l).Perm ((List.range n).flatMap (fun i => enqueuedBy i l)) := by
  have ins : ∀ (ks : List Nat) (j : Nat) (x : α) (f : Nat → List α), ks.Nodup → j ∈ ks →
      (x :: ks.flatMap f).Perm (ks.flatMap (fun k => if j = k then x :: f k else f k)) := by
    intro ks j x f
    induction ks with
    | nil => intro _ h; cases h
    | cons k ks ih =>
      intro hn hj
      simp only [List.nodup_cons] at hn
      by_cases hk : j = k
      · subst hk
        have : ks.flatMap (fun k => if j = k then x :: f k else f k) = ks.flatMap f := by
          clear ih hj
          induction ks with
          | nil => rfl
          | cons a ks ih =>
            simp only [List.mem_cons, not_or, List.nodup_cons] at hn
            simp only [List.flatMap_cons, if_neg hn.1.1, ih ⟨hn.1.2, hn.2.2⟩]
        simp [List.flatMap_cons, this]
      · have hj' : j ∈ ks := by
          rcases List.mem_cons.mp hj with h | h
          · exact absurd h hk
          · exact h
        simp only [List.flatMap_cons, if_neg hk]
        exact (List.perm_middle.symm).trans ((ih hn.2 hj').append_left _)
  induction l with
  | nil =>
    have : (List.range n).flatMap (fun i => enqueuedBy i ([] : List (Ev α))) = [] := by simp [enqueuedBy]
    rw [this]; simp [enqueued]
  | cons e l ih =>
    have ih := ih (fun e he => h e (by simp [he]))
    cases e with
    | enq j x =>
      have e1 : enqueued (.enq j x :: l) = x :: enqueued l := by simp [enqueued]
      have e2 : (fun i => enqueuedBy i (.enq j x :: l)) = fun k => if j = k then x :: enqueuedBy k l else enqueuedBy k l := by
        funext k; by_cases hk : j = k <;> simp [enqueuedBy, hk]
      rw [e1, e2]
      exact (ih.cons x).trans (ins _ j x _ List.nodup_range (List.mem_range.mpr (h (.enq j x) (by simp))))
    | _ => simpa [enqueued, enqueuedBy] using ih

/-- Nothing found: at a moment between call and return the queue was empty. -/
theorem empty_moment (c : Nat) : ∀ (l : List (Ev α)) q, replay empty l = some q →
    (q.doing c = .done .no → (∃ p e u, ofThread c l = p ++ [.call c (.enq e u)]) ∨
      ∃ l1 l2 q1, l = l1 ++ .empty c :: l2 ∧ replay empty l1 = some q1 ∧ q1.q = [] ∧ ofThread c l1 = ofThread c l) ∧
    (∀ x, q.doing c = .called x → ∃ p, ofThread c l = p ++ [.call c x]) := by
  refine replay_induct ?_ ?_
  · exact ⟨(fun h => by cases h), (fun x h => by cases h)⟩
  · intro l q e q' hl ih ha
    by_cases hc : threadOf e = c
    · rcases after_cases ha with ⟨j, y, rfl, g1, rfl⟩ | ⟨j, y, u, rfl, g1, rfl⟩ | ⟨j, y, rfl, g1, rfl⟩ | ⟨j, y, l', rfl, g1, g2, rfl⟩ | ⟨j, rfl, g1, g2, rfl⟩ | ⟨j, y, rfl, g1, rfl⟩ | ⟨j, r', rfl, g1, rfl⟩
      all_goals
        simp only [threadOf] at hc
        subst hc
        rw [ofThread_append]
        refine ⟨fun h => ?_, fun x h => ?_⟩
      all_goals (try (simp [Q.set] at h; done))
      · simp only [set_self] at h; cases h; exact ⟨ofThread j l, by simp [ofThread]⟩
      · obtain ⟨p, hp⟩ := ih.2 _ g1
        exact .inl ⟨p, y, false, by rw [hp]; simp [ofThread]⟩
      · exact .inr ⟨l, [], q, rfl, hl, g2, by simp [ofThread]⟩
    · have hj : ofThread c (l ++ [e]) = ofThread c l := by
        rw [ofThread_append]; cases e <;> simp only [threadOf] at hc <;> simp [ofThread, hc]
      have hd' : q'.doing c = q.doing c := by
        rcases after_cases ha with ⟨j, y, rfl, g1, rfl⟩ | ⟨j, y, u, rfl, g1, rfl⟩ | ⟨j, y, rfl, g1, rfl⟩ | ⟨j, y, l', rfl, g1, g2, rfl⟩ | ⟨j, rfl, g1, g2, rfl⟩ | ⟨j, y, rfl, g1, rfl⟩ | ⟨j, r', rfl, g1, rfl⟩
        all_goals
          simp only [threadOf] at hc
          have hc' : ¬ c = j := fun e => hc e.symm
          simp [Q.set, hc']
      rw [hd', hj]
      refine ⟨fun h => ?_, ih.2⟩
      rcases ih.1 h with h | ⟨l1, l2, q1, rfl, h2, h3, h4⟩
      · exact .inl h
      · exact .inr ⟨l1, l2 ++ [e], q1, by simp, h2, h3, h4⟩

/-- The same, for a dequeue that has returned. -/
theorem empty_returned {c : Nat} {l : List (Ev α)} {q : Q α} {p : List (Ev α)} {d : Call α} (h : replay empty l = some q)
    (hd : d = .deq ∨ d = .deqM) (ht : ofThread c l = p ++ [.call c d, .ret c .no]) :
    ∃ l1 l2 q1, l = l1 ++ .empty c :: l2 ∧ replay empty l1 = some q1 ∧ q1.q = [] ∧ ofThread c l1 = p ++ [.call c d] := by
  have ht' : ofThread c l = (p ++ [.call c d]) ++ [.ret c .no] := by simpa using ht
  obtain ⟨l1, l2, rfl, h1, h2⟩ := List.filter_eq_append_iff.mp ht'
  obtain ⟨l3, l4, rfl, h3, _, h5⟩ := List.filter_eq_cons_iff.mp h2
  rw [replay_append, Option.bind_eq_some_iff] at h
  obtain ⟨q1, hq1, h⟩ := h
  rw [replay_append, Option.bind_eq_some_iff] at h
  obtain ⟨q2, hq2, h⟩ := h
  simp only [replay, Option.bind_eq_some_iff] at h
  obtain ⟨q3, hq3, _⟩ := h
  have hr : replay empty (l1 ++ l3) = some q2 := by rw [replay_append, hq1]; exact hq2
  have ho : ofThread c (l1 ++ l3) = p ++ [.call c d] := by
    rw [ofThread_append]
    have : ofThread c l3 = [] := by
      rw [ofThread, List.filter_eq_nil_iff]; exact h3
    rw [this, List.append_nil]; exact h1
  have hdone : q2.doing c = .done .no := by
    rcases after_cases hq3 with ⟨j, x, e, _⟩ | ⟨j, x, u, e, _⟩ | ⟨j, x, e, _⟩ | ⟨j, x, l', e, _⟩ | ⟨j, e, _⟩ | ⟨j, x, e, _⟩ | ⟨j, r, e, g, _⟩ <;> cases e
    rcases g with g | g
    · exact g
    · cases g.2
  rcases (empty_moment c _ q2 hr).1 hdone with ⟨p', e, u, h'⟩ | ⟨a, b, q4, e1, e2, e3, e4⟩
  · rw [ho] at h'
    have := (List.append_inj' h' rfl).2
    simp only [List.cons.injEq, Ev.call.injEq] at this
    rcases hd with rfl | rfl <;> simp at this
  · exact ⟨a, b ++ .ret c .no :: l4, q4, by rw [← List.append_assoc, e1]; simp, e2, e3, by rw [e4]; exact ho⟩

/-- The consumer puts an element back and dequeues: it gets that element. -/
theorem rewind_deq {c : Nat} : ∀ (l : List (Ev α)) q, replay empty l = some q → Only c l →
    ∀ p e x r d, (d = .deq ∨ d = .deqM) →
    (ofThread c l = p ++ [.call c (.rewind e)] → q.doing c = .called (.rewind e) ∨ q.doing c = .done .yes ∧ q.q.head? = some e) ∧
    (ofThread c l = p ++ [.call c (.rewind e), .ret c x] → x = .yes ∧ q.doing c = .nothing ∧ q.q.head? = some e) ∧
    (ofThread c l = p ++ [.call c (.rewind e), .ret c x, .call c d] → x = .yes ∧ (q.doing c = .called d ∧ q.q.head? = some e ∨ q.doing c = .done (.val (some e)))) ∧
    (ofThread c l = p ++ [.call c (.rewind e), .ret c x, .call c d, .ret c r] → x = .yes ∧ r = .val (some e)) := by
  refine replay_induct (P := fun (l : List (Ev α)) (q : Q α) => Only c l → ∀ p e x r d, (d = .deq ∨ d = .deqM) →
    (ofThread c l = p ++ [.call c (.rewind e)] → q.doing c = .called (.rewind e) ∨ q.doing c = .done .yes ∧ q.q.head? = some e) ∧
    (ofThread c l = p ++ [.call c (.rewind e), .ret c x] → x = .yes ∧ q.doing c = .nothing ∧ q.q.head? = some e) ∧
    (ofThread c l = p ++ [.call c (.rewind e), .ret c x, .call c d] → x = .yes ∧ (q.doing c = .called d ∧ q.q.head? = some e ∨ q.doing c = .done (.val (some e)))) ∧
    (ofThread c l = p ++ [.call c (.rewind e), .ret c x, .call c d, .ret c r] → x = .yes ∧ r = .val (some e))) ?_ ?_
  · intro _ p e x r d _
    simp [ofThread]
  · intro l q ev q' hl ih ha ho p e x r d hd
    have ho' : Only c l := fun j x hx => ho j x (by simp [hx])
    have ih := ih ho' p e x r d hd
    have hp := passive_of_only l q hl ho'
    obtain ⟨i1, i2, i3, i4⟩ := ih
    have sn : ∀ {a b : List (Ev α)} {u v : Ev α}, a ++ [u] = b ++ [v] → a = b ∧ u = v := by
      intro a b u v h
      have := List.append_inj' h rfl
      exact ⟨this.1, by simpa using this.2⟩
    by_cases hc : threadOf ev = c
    · rw [ofThread_append]
      rcases after_cases ha with ⟨j, y, rfl, g1, rfl⟩ | ⟨j, y, u, rfl, g1, rfl⟩ | ⟨j, y, rfl, g1, rfl⟩ | ⟨j, y, l', rfl, g1, g2, rfl⟩ | ⟨j, rfl, g1, g2, rfl⟩ | ⟨j, y, rfl, g1, rfl⟩ | ⟨j, r', rfl, g1, rfl⟩
      all_goals
        simp only [threadOf] at hc
        subst hc
      · have e0 : ofThread j [.call j y] = [.call j y] := by simp [ofThread]
        rw [e0]
        refine ⟨fun h => ?_, fun h => ?_, fun h => ?_, fun h => ?_⟩
        · obtain ⟨_, h2⟩ := sn h
          cases h2; left; simp
        · obtain ⟨_, h2⟩ := sn (b := p ++ [.call j (.rewind e)]) (v := .ret j x) (by simpa using h)
          cases h2
        · obtain ⟨h1, h2⟩ := sn (b := p ++ [.call j (.rewind e), .ret j x]) (v := .call j d) (by simpa using h)
          cases h2
          have := i2 h1
          exact ⟨this.1, .inl ⟨by simp, this.2.2⟩⟩
        · obtain ⟨_, h2⟩ := sn (b := p ++ [.call j (.rewind e), .ret j x, .call j d]) (v := .ret j r) (by simpa using h)
          cases h2
      · have e0 : ofThread j [.enq j y] = [] := by simp [ofThread]
        rw [e0, List.append_nil]
        rw [g1] at i1 i2 i3
        refine ⟨fun h => ?_, fun h => ?_, fun h => ?_, i4⟩
        · rcases i1 h with h | h <;> simp at h
        · simpa using (i2 h).2.1
        · rcases (i3 h).2 with h | h
          · rcases hd with rfl | rfl <;> simp at h
          · simp at h
      · have e0 : ofThread j [.refuse j] = ([] : List (Ev α)) := by simp [ofThread]
        rw [e0, List.append_nil]
        rw [g1] at i1 i2 i3
        refine ⟨fun h => ?_, fun h => ?_, fun h => ?_, i4⟩
        · rcases i1 h with h | h <;> simp at h
        · simpa using (i2 h).2.1
        · rcases (i3 h).2 with h | h
          · rcases hd with rfl | rfl <;> simp at h
          · simp at h
      · have e0 : ofThread j [.take j] = ([] : List (Ev α)) := by simp [ofThread]
        rw [e0, List.append_nil]
        refine ⟨fun h => ?_, fun h => ?_, fun h => ?_, i4⟩
        · rcases g1 with g1 | g1 <;> rw [g1] at i1 <;> rcases i1 h with h | h <;> simp at h
        · rcases g1 with g1 | g1 <;> rw [g1] at i2 <;> simpa using (i2 h).2.1
        · refine ⟨(i3 h).1, .inr ?_⟩
          rcases (i3 h).2 with h | h
          · have := h.2
            rw [g2] at this
            simp only [List.head?_cons, Option.some.injEq] at this
            simp [Q.set, this]
          · rcases g1 with g1 | g1 <;> rw [g1] at h <;> simp at h
      · have e0 : ofThread j [.empty j] = ([] : List (Ev α)) := by simp [ofThread]
        rw [e0, List.append_nil]
        refine ⟨fun h => ?_, fun h => ?_, fun h => ?_, i4⟩
        · rcases g1 with g1 | g1 <;> rw [g1] at i1 <;> rcases i1 h with h | h <;> simp at h
        · rcases g1 with g1 | g1 <;> rw [g1] at i2 <;> simpa using (i2 h).2.1
        · exfalso
          rcases (i3 h).2 with h | h
          · have := h.2
            rw [g2] at this
            simp at this
          · rcases g1 with g1 | g1 <;> rw [g1] at h <;> simp at h
      · have e0 : ofThread j [.rewind j y] = [] := by simp [ofThread]
        rw [e0, List.append_nil]
        rw [g1] at i1 i2 i3
        refine ⟨fun h => ?_, fun h => ?_, fun h => ?_, i4⟩
        · right
          rcases i1 h with h | h
          · cases h; simp [Q.set]
          · simp at h
        · simpa using (i2 h).2.1
        · rcases (i3 h).2 with h | h
          · rcases hd with rfl | rfl <;> simp at h
          · simp at h
      · have e0 : ofThread j [.ret j r'] = [.ret j r'] := by simp [ofThread]
        rw [e0]
        refine ⟨fun h => ?_, fun h => ?_, fun h => ?_, fun h => ?_⟩
        · obtain ⟨_, h2⟩ := sn h
          cases h2
        · obtain ⟨h1, h2⟩ := sn (b := p ++ [.call j (.rewind e)]) (v := .ret j x) (by simpa using h)
          cases h2
          rcases i1 h1 with h | h
          · rw [h] at g1; simp at g1
          · rw [h.1] at g1; simp at g1; exact ⟨g1.symm, by simp, h.2⟩
        · obtain ⟨_, h2⟩ := sn (b := p ++ [.call j (.rewind e), .ret j x]) (v := .call j d) (by simpa using h)
          cases h2
        · obtain ⟨h1, h2⟩ := sn (b := p ++ [.call j (.rewind e), .ret j x, .call j d]) (v := .ret j r) (by simpa using h)
          cases h2
          refine ⟨(i3 h1).1, ?_⟩
          rcases (i3 h1).2 with h | h
          · rw [h.1] at g1; rcases hd with rfl | rfl <;> simp at g1
          · rw [h] at g1; simp at g1; exact g1.symm
    · have hj : ofThread c (l ++ [ev]) = ofThread c l := by
        rw [ofThread_append]; cases ev <;> simp only [threadOf] at hc <;> simp [ofThread, hc]
      have hd' : q'.doing c = q.doing c := by
        rcases after_cases ha with ⟨j, y, rfl, g1, rfl⟩ | ⟨j, y, u, rfl, g1, rfl⟩ | ⟨j, y, rfl, g1, rfl⟩ | ⟨j, y, l', rfl, g1, g2, rfl⟩ | ⟨j, rfl, g1, g2, rfl⟩ | ⟨j, y, rfl, g1, rfl⟩ | ⟨j, r', rfl, g1, rfl⟩
        all_goals
          simp only [threadOf] at hc
          have hc' : ¬ c = j := fun e => hc e.symm
          simp [Q.set, hc']
      have hq' : q.q.head? = some e → q'.q.head? = some e := by
        intro hh
        rcases after_cases ha with ⟨j, y, rfl, g1, rfl⟩ | ⟨j, y, u, rfl, g1, rfl⟩ | ⟨j, y, rfl, g1, rfl⟩ | ⟨j, y, l', rfl, g1, g2, rfl⟩ | ⟨j, rfl, g1, g2, rfl⟩ | ⟨j, y, rfl, g1, rfl⟩ | ⟨j, r', rfl, g1, rfl⟩
        · exact hh
        · simp [List.head?_append, hh]
        · exact hh
        · exfalso
          have := hp j hc
          rcases g1 with g1 | g1 <;> rw [g1] at this <;> exact this
        · exact hh
        · exfalso
          have := hp j hc
          rw [g1] at this; exact this
        · exact hh
      rw [hj, hd']
      exact ⟨fun h => (i1 h).imp id (And.imp id hq'), fun h => ⟨(i2 h).1, (i2 h).2.1, hq' (i2 h).2.2⟩,
        fun h => ⟨(i3 h).1, (i3 h).2.imp (And.imp id hq') id⟩, i4⟩

/-- The same wherever it occurs in the history. -/
theorem rewind_deq_at {c : Nat} {l : List (Ev α)} {q : Q α} (h : replay empty l = some q) (ho : Only c l)
    {p p' : List (Ev α)} {e : α} {x r : Ret α} {d : Call α} (hd : d = .deq ∨ d = .deqM)
    (ht : ofThread c l = p ++ [.call c (.rewind e), .ret c x, .call c d, .ret c r] ++ p') : x = .yes ∧ r = .val (some e) := by
  obtain ⟨l1, l2, rfl, h1, h2⟩ := List.filter_eq_append_iff.mp ht
  rw [replay_append] at h
  obtain ⟨q1, h1', _⟩ := Option.bind_eq_some_iff.mp h
  exact (rewind_deq l1 q1 h1' (fun i x hx => ho i x (by simp [hx])) p e x r d hd).2.2.2 h1

/-- What is put back was given to a call of rewind. -/
theorem rewind_called : ∀ (l : List (Ev α)) q, replay empty l = some q →
    (∀ i e, .rewind i e ∈ l → .call i (.rewind e) ∈ l) ∧ ∀ i c, q.doing i = .called c → .call i c ∈ l := by
  refine replay_induct ?_ ?_
  · exact ⟨(fun i e h => by cases h), (fun i c h => by cases h)⟩
  · intro l q e q' hl ih ha
    rcases after_cases ha with ⟨j, y, rfl, g1, rfl⟩ | ⟨j, y, u, rfl, g1, rfl⟩ | ⟨j, y, rfl, g1, rfl⟩ | ⟨j, y, l', rfl, g1, g2, rfl⟩ | ⟨j, rfl, g1, g2, rfl⟩ | ⟨j, y, rfl, g1, rfl⟩ | ⟨j, r', rfl, g1, rfl⟩
    all_goals
      refine ⟨fun i x hx => ?_, fun i c hc => ?_⟩
      · simp at hx
        first
        | exact List.mem_append_left _ (ih.1 i x hx)
        | (rcases hx with hx | ⟨rfl, rfl⟩
           · exact List.mem_append_left _ (ih.1 i x hx)
           · exact List.mem_append_left _ (ih.2 i _ g1))
      · by_cases hij : i = j
        · subst hij
          simp [Q.set] at hc
          try (subst hc; simp)
        · simp only [Q.set, hij, if_false] at hc
          exact List.mem_append_left _ (ih.2 i c hc)

theorem rewound_nil {l : List (Ev α)} {q : Q α} (h : replay empty l = some q) (hr : ∀ i e, .call i (.rewind e) ∉ l) : rewound l = [] := by
  rw [rewound, List.filterMap_eq_nil_iff]
  intro e he
  cases e with
  | rewind i x => exact absurd ((rewind_called l q h).1 i x he) (hr i x)
  | _ => rfl

theorem dequeued_observed (l : List (Ev α)) : dequeued (observed l) = dequeued l := by
  simp only [dequeued, observed, List.filterMap_filter]
  congr 1; funext x; cases x <;> simp

theorem ofThread_observed (i : Nat) (l : List (Ev α)) : ofThread i (observed l) = ofThread i l := by
  simp only [ofThread, observed, List.filter_filter]
  congr 1; funext x; cases x <;> simp

theorem accepted_observed (i : Nat) (l : List (Ev α)) : accepted i (observed l) = accepted i l := by
  rw [accepted, ofThread_observed]; rfl

theorem observed_append (a b : List (Ev α)) : observed (a ++ b) = observed a ++ observed b := by simp [observed]

theorem mem_observed {i : Nat} {c : Call α} {l : List (Ev α)} : .call i c ∈ observed l ↔ .call i c ∈ l := by
  simp [observed]

/-- One consumer, no rewinds: when a dequeue finds nothing, what had been enqueued before its call had been dequeued. -/
theorem found_nothing {c : Nat} {l o : List (Ev α)} {d : Call α} (hl : Linearizable l) (ho : Only c l) (hr : ∀ i e, .call i (.rewind e) ∉ l)
    (hd : d = .deq ∨ d = .deqM) (h : observed l = o ++ [.call c d, .ret c .no]) :
    ∀ i x, x ∈ accepted i o → x ∈ dequeued o := by
  intro i x hx
  obtain ⟨l', h1, q, hq⟩ := hl
  rw [h] at h1
  obtain ⟨a, b, rfl, ha, hb⟩ := List.filter_eq_append_iff.mp h1
  change observed a = o at ha
  change observed b = _ at hb
  have hoo : observed (a ++ b) = observed l := by rw [h, observed_append, ha, hb]
  have hth : ofThread c (a ++ b) = ofThread c o ++ [.call c d, .ret c .no] := by
    rw [← ofThread_observed, hoo, h, ofThread_append]; simp [ofThread]
  obtain ⟨l1, l2, q1, e1, e2, e3, e4⟩ := empty_returned hq hd hth
  have hao : ofThread c a = ofThread c o := by rw [← ofThread_observed, ha]
  obtain ⟨m, hm⟩ : ∃ m, l1 = a ++ m := by
    rcases List.append_eq_append_iff.mp e1 with ⟨m, h2, _⟩ | ⟨m, h2, _⟩
    · exact ⟨m, h2⟩
    · exfalso
      rw [h2, ofThread_append, e4] at hao
      have := congrArg List.length hao
      simp at this
  subst hm
  have hb' : b = m ++ .empty c :: l2 := by
    have := e1; rw [List.append_assoc] at this; exact List.append_cancel_left this
  have hdm : dequeued m = [] := by
    have hb2 := hb
    rw [hb', observed_append] at hb2
    have : dequeued (observed m ++ observed (.empty c :: l2)) = [] := by rw [hb2]; simp [dequeued]
    have h3 : dequeued (observed m) = [] := by
      simp only [dequeued, List.filterMap_append, List.append_eq_nil_iff] at this
      exact this.1
    rwa [dequeued_observed] at h3
  have hon : Only c (a ++ m) := by
    intro j y hy
    apply ho j y
    rw [← mem_observed, ← hoo, mem_observed, hb', ← List.append_assoc]
    exact List.mem_append_left _ hy
  have hrw : ∀ i e, Ev.call i (.rewind e) ∉ a ++ m := by
    intro j e hy
    apply hr j e
    rw [← mem_observed, ← hoo, mem_observed, hb', ← List.append_assoc]
    exact List.mem_append_left _ hy
  have hf := (fifo (a ++ m) q1 e2 hon hrw).1
  have hp : pend (q1.doing c) = [] := by
    rw [e1, replay_append, e2] at hq
    simp only [Option.bind_some, replay, Option.bind_eq_some_iff] at hq
    obtain ⟨q2, h2, _⟩ := hq
    rcases after_cases h2 with ⟨j, x, e, _⟩ | ⟨j, x, u, e, _⟩ | ⟨j, x, e, _⟩ | ⟨j, x, l', e, _⟩ | ⟨j, e, g, _⟩ | ⟨j, x, e, _⟩ | ⟨j, r, e, g, _⟩ <;> cases e
    rcases g with g | g <;> rw [g] <;> rfl
  rw [hp, e3, List.append_nil, List.append_nil] at hf
  have hfd : enqueued (a ++ m) = dequeued o := by
    rw [hf, ← ha, dequeued_observed]
    simp only [dequeued, List.filterMap_append] at hdm ⊢
    rw [hdm, List.append_nil]
  rw [← hfd]
  have hxa : x ∈ accepted i a := by rw [← accepted_observed, ha]; exact hx
  have hra : ∃ qa, replay empty a = some qa := by
    rw [replay_append, Option.bind_eq_some_iff] at e2
    obtain ⟨qa, h2, _⟩ := e2; exact ⟨qa, h2⟩
  obtain ⟨qa, hra⟩ := hra
  have hxe : x ∈ enqueuedBy i a := by
    rcases program_order_prefix hra i with h2 | ⟨e, h2⟩ <;> rw [h2]
    · exact hxa
    · exact List.mem_append_left _ hxa
  have := (enqueuedBy_sublist i a).subset hxe
  simp only [enqueued, List.filterMap_append] at this ⊢
  exact List.mem_append_left _ this

/-- When no operation is running and one dequeue then finds nothing: every element enqueued (or put back) has been dequeued, as often. -/
theorem drained {l mid : List (Ev α)} {q : Q α} {i n : Nat} {d : Call α} (hd : d = .deq ∨ d = .deqM)
    (h : replay empty (l ++ .call i d :: mid ++ [.ret i .no]) = some q) (hq : Quiet l) (hn : ∀ e ∈ l, threadOf e < n)
    (hm : ∀ e ∈ mid, threadOf e = i) (hm' : ofThread i mid = []) :
    ((List.range n).flatMap (fun j => accepted j l) ++ rewound l).Perm (dequeued l) ∧ ∀ j, (accepted j l).Sublist (enqueued l) := by
  rw [List.append_assoc, replay_append, Option.bind_eq_some_iff] at h
  obtain ⟨q1, h1, h2⟩ := h
  have he := alone_empty hd hm hm' h2
  have hc := conserve_quiet h1 hq
  rw [he, List.append_nil] at hc
  have ha : (fun j => accepted j l) = fun j => enqueuedBy j l := by
    funext j; exact (program_order_quiet h1 hq j).symm
  refine ⟨?_, fun j => ?_⟩
  · rw [ha]
    exact ((enqueued_perm hn).symm.append_right _).trans hc
  · rw [← program_order_quiet h1 hq j]; exact enqueuedBy_sublist j l

end Spec.Queue
end Salticidae
