import Verif.Lemmas.QueueSpec
/-!
An enqueue that is refused when no other operation is running.
-/
namespace Salticidae
namespace Spec.Queue
open Salticidae.Queue

variable {α : Type} [DecidableEq α]

/-- One thread's operation has taken effect, nothing else is running: nothing more happens before it returns. -/
theorem done_alone {q q' : Q α} {i : Nat} {r : Ret α} (h1 : q.doing i = .done r) (h2 : ∀ j, j ≠ i → q.doing j = .nothing) {mid : List (Ev α)} (hm : observed mid = [])
    (h : replay q mid = some q') : mid = [] := by
  cases mid with
  | nil => rfl
  | cons e mid =>
    exfalso
    simp only [replay, Option.bind_eq_some_iff] at h
    obtain ⟨q1, ha, _⟩ := h
    have hc : ∀ j, q.doing j = .nothing ∨ q.doing j = .done r := fun j => by
      by_cases e : j = i
      · subst e; exact .inr h1
      · exact .inl (h2 j e)
    rcases after_cases ha with ⟨j, x, rfl, g, _⟩ | ⟨j, x, u, rfl, g, _⟩ | ⟨j, x, rfl, g, _⟩ | ⟨j, x, l', rfl, g, _⟩ | ⟨j, rfl, g, _⟩ | ⟨j, x, rfl, g, _⟩ | ⟨j, r', rfl, g, _⟩
    · simp [observed] at hm
    · rcases hc j with h | h <;> rw [h] at g <;> cases g
    · rcases hc j with h | h <;> rw [h] at g <;> cases g
    · rcases hc j with h | h <;> rw [h] at g <;> rcases g with g | g <;> cases g
    · rcases hc j with h | h <;> rw [h] at g <;> rcases g with g | g <;> cases g
    · rcases hc j with h | h <;> rw [h] at g <;> cases g
    · simp [observed] at hm

/-- An enqueue that runs alone: it has taken effect or has been refused, and returns that. -/
theorem enq_alone {q q' : Q α} {i : Nat} {e : α} {b : Bool} {r : Ret α} (h0 : ∀ j, q.doing j = .nothing) {mid : List (Ev α)} (hm : observed mid = [])
    (h : replay q (.call i (.enq e b) :: mid ++ [.ret i r]) = some q') : (mid = [.enq i e] ∧ r = .yes) ∨ (mid = [.refuse i] ∧ r = .no) := by
  rw [List.cons_append, replay] at h
  simp only [Option.bind_eq_some_iff] at h
  obtain ⟨q1, h1, h⟩ := h
  rcases after_cases h1 with ⟨j, x, e, g1, rfl⟩ | ⟨j, x, u, e, _⟩ | ⟨j, x, e, _⟩ | ⟨j, x, l', e, _⟩ | ⟨j, e, _⟩ | ⟨j, x, e, _⟩ | ⟨j, r, e, _⟩ <;> cases e
  cases mid with
  | nil =>
    simp only [List.nil_append, replay, Option.bind_eq_some_iff] at h
    obtain ⟨q2, h2, _⟩ := h
    simp [after, Q.set] at h2
  | cons f mid =>
    rw [List.cons_append, replay] at h
    simp only [Option.bind_eq_some_iff] at h
    obtain ⟨q2, h2, h⟩ := h
    rw [replay_append, Option.bind_eq_some_iff] at h
    obtain ⟨q3, h3, h4⟩ := h
    simp only [replay, Option.bind_eq_some_iff] at h4
    obtain ⟨q4, h4, _⟩ := h4
    have hm' : observed mid = [] := by
      cases f <;> simp [observed] at hm ⊢ <;> exact hm
    have hc : ∀ j, j ≠ i → (q.set i (.called (.enq e b))).doing j = .nothing := fun j hj => by rw [set_other _ _ hj]; exact h0 j
    have hi : (q.set i (.called (.enq e b))).doing i = .called (.enq e b) := set_self _ _ _
    clear g1
    rcases after_cases h2 with ⟨j, x, rfl, g, _⟩ | ⟨j, x, u, rfl, g, rfl⟩ | ⟨j, x, rfl, g, rfl⟩ | ⟨j, x, l', rfl, g, _⟩ | ⟨j, rfl, g, _⟩ | ⟨j, x, rfl, g, _⟩ | ⟨j, r', rfl, g, _⟩
    · simp [observed] at hm
    · have hj : j = i := by
        by_cases e : j = i
        · exact e
        · rw [hc j e] at g; cases g
      subst hj
      have := done_alone (i := j) (r := .yes) (by simp [Q.set]) (fun k hk => by simp [Q.set, hk, h0]) hm' h3
      subst this
      cases h3
      rw [hi] at g
      cases g
      left
      simp [after, Q.set] at h4
      exact ⟨rfl, h4.1⟩
    · have hj : j = i := by
        by_cases e : j = i
        · exact e
        · rw [hc j e] at g; cases g
      subst hj
      have := done_alone (i := j) (r := .no) (by simp [Q.set]) (fun k hk => by simp [Q.set, hk, h0]) hm' h3
      subst this
      cases h3
      right
      simp [after, Q.set] at h4
      exact ⟨rfl, h4.1⟩
    · exfalso
      by_cases e : j = i
      · subst e; rw [hi] at g; rcases g with g | g <;> cases g
      · rw [hc j e] at g; rcases g with g | g <;> cases g
    · exfalso
      by_cases e : j = i
      · subst e; rw [hi] at g; rcases g with g | g <;> cases g
      · rw [hc j e] at g; rcases g with g | g <;> cases g
    · exfalso
      by_cases e : j = i
      · subst e; rw [hi] at g; cases g
      · rw [hc j e] at g; cases g
    · simp [observed] at hm

/-- Two events seen one after the other. -/
theorem split_observed {l o : List (Ev α)} {i j : Nat} {c : Call α} {r : Ret α} (h : o ++ [.call i c, .ret j r] <+: observed l) :
    ∃ a mid w, l = a ++ .call i c :: mid ++ .ret j r :: w ∧ observed a = o ∧ observed mid = [] := by
  obtain ⟨t, ht⟩ := h
  obtain ⟨l, z, rfl, h, _⟩ := List.filter_eq_append_iff.mp ht.symm
  suffices ∃ a mid w, l = a ++ .call i c :: mid ++ .ret j r :: w ∧ observed a = o ∧ observed mid = [] by
    obtain ⟨a, mid, w, h1, h2⟩ := this
    exact ⟨a, mid, w ++ z, by rw [h1]; simp, h2⟩
  have h' : l.filter (fun | Ev.call _ _ => true | .ret _ _ => true | _ => false) = o ++ [.call i c, .ret j r] := h
  obtain ⟨a, b, rfl, ha, hb⟩ := List.filter_eq_append_iff.mp h'
  obtain ⟨u, v, hb1, hu, hv, hw⟩ := List.filter_eq_cons_iff.mp hb
  obtain ⟨u', v', hb2, hu', hv', hw'⟩ := List.filter_eq_cons_iff.mp hw
  refine ⟨a ++ u, u', v', ?_, ?_, ?_⟩
  · rw [hb1, hb2]; simp
  · rw [observed_append]
    show observed a ++ observed u = o
    have : observed u = [] := List.filter_eq_nil_iff.mpr hu
    rw [this, List.append_nil]; exact ha
  · exact List.filter_eq_nil_iff.mpr hu'

/-- What is inside, counted from outside, when nothing is running. -/
theorem count_quiet {l : List (Ev α)} {q : Q α} {n : Nat} (h : replay empty l = some q) (hq : Quiet l) (hr : rewound l = []) (hn : ∀ e ∈ l, threadOf e < n) :
    acceptedCount n l = (dequeued l).length + q.q.length := by
  have h1 := (conserve_quiet h hq).length_eq
  have h2 := (enqueued_perm hn).length_eq
  have ha : (fun j => accepted j l) = fun j => enqueuedBy j l := by
    funext j; exact (program_order_quiet h hq j).symm
  rw [acceptedCount, ha, ← h2]
  simpa [hr] using h1

theorem perm_quiet {l : List (Ev α)} {q : Q α} {n : Nat} (h : replay empty l = some q) (hq : Quiet l) (hr : rewound l = []) (hn : ∀ e ∈ l, threadOf e < n) :
    ((List.range n).flatMap (fun j => accepted j l)).Perm (dequeued l ++ q.q) := by
  have h1 := conserve_quiet h hq
  have h2 := enqueued_perm hn
  have ha : (fun j => accepted j l) = fun j => enqueuedBy j l := by
    funext j; exact (program_order_quiet h hq j).symm
  rw [ha]
  rw [hr, List.append_nil] at h1
  exact h2.symm.trans h1

theorem acceptedCount_observed (n : Nat) (l : List (Ev α)) : acceptedCount n (observed l) = acceptedCount n l := by
  simp only [acceptedCount, accepted_observed]

theorem blocks_observed (l : List (Ev α)) : blocks (observed l) = blocks l := by
  simp only [blocks, observed, List.countP_filter]
  congr 1; funext x; cases x <;> simp [isAdd]

end Spec.Queue
end Salticidae
