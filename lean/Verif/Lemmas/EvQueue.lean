import Verif.Model.EvQueue
namespace Salticidae
namespace EvQ

theorem mem_set_ne {α : Type} [DecidableEq α] {l : List α} {i : Nat} {p q x : α} (h : l[i]? = some p)
    (hx : x ∈ l) (hne : x ≠ p) : x ∈ l.set i q := by
  obtain ⟨j, hj⟩ := List.mem_iff_getElem?.1 hx
  refine List.mem_iff_getElem?.2 ⟨j, ?_⟩
  rw [List.getElem?_set]
  by_cases e : i = j
  · subst e; rw [h] at hj; cases hj; exact absurd rfl hne
  · rw [if_neg e]; exact hj

theorem mem_set_new {α : Type} {l : List α} {i : Nat} {p q : α} (h : l[i]? = some p) : q ∈ l.set i q := by
  have hi : i < l.length := (List.getElem?_eq_some_iff.1 h).1
  exact List.mem_iff_getElem?.2 ⟨i, by simp [List.getElem?_set, hi]⟩

/-- Who is responsible for the queue being looked at. -/
structure Inv {α : Type} (s : St α) : Prop where
  sig : s.waitSig = false → 0 < s.fd ∨ .notify ∈ s.prods ∨ .exch ∈ s.cons
  look : s.q ≠ [] → 0 < s.fd ∨ .notify ∈ s.prods ∨ .exch ∈ s.prods ∨
    .exch ∈ s.cons ∨ .func ∈ s.cons ∨ .notify ∈ s.cons
  fifo : s.accepted = s.seen ++ s.q

theorem inv_init {α : Type} (k : Nat) : Inv (init k : St α) := ⟨by simp [init], by simp [init], rfl⟩

variable {α : Type} [DecidableEq α]

theorem inv_step {b : Bool} {s s' : St α} {a : Act α} (hi : Inv s) (h : step b s a = some s') : Inv s' := by
  obtain ⟨h1, h2, h3⟩ := hi
  cases a with
  | call a =>
    cases h
    refine ⟨fun hw => ?_, fun hq => ?_, h3⟩
    · rcases h1 hw with h | h | h <;> simp [h]
    · rcases h2 hq with h | h | h | h | h | h <;> simp [h]
  | prod i =>
    simp only [step] at h
    rcases hp : s.prods[i]? with _ | p
    · rw [hp] at h; cases h
    · rw [hp] at h
      cases p <;> simp only [Option.some.injEq, reduceCtorEq] at h
      case enq a =>
        subst h
        refine ⟨fun hw => ?_, fun _ => ?_, by simp [h3]⟩
        · rcases h1 hw with h | h | h
          · exact .inl h
          · exact .inr (.inl (mem_set_ne hp h (by simp)))
          · exact .inr (.inr h)
        · exact .inr (.inr (.inl (mem_set_new hp)))
      case exch =>
        subst h
        have key : 0 < s.fd ∨ PPc.notify ∈ s.prods.set i (if s.waitSig then .notify else .done true) ∨ .exch ∈ s.cons := by
          cases hw : s.waitSig with
          | true => exact .inr (.inl (mem_set_new hp))
          | false =>
            rcases h1 hw with h | h | h
            · exact .inl h
            · exact .inr (.inl (mem_set_ne hp h (by simp)))
            · exact .inr (.inr h)
        refine ⟨fun _ => key, fun _ => ?_, h3⟩
        rcases key with h | h | h
        · exact .inl h
        · exact .inr (.inl h)
        · exact .inr (.inr (.inr (.inl h)))
      case notify =>
        subst h
        exact ⟨fun _ => .inl (by simp), fun _ => .inl (by simp), h3⟩
  | refuse i =>
    simp only [step] at h
    rcases hp : s.prods[i]? with _ | p
    · rw [hp] at h; cases h
    · rw [hp] at h
      cases p <;> simp only [Option.some.injEq, reduceCtorEq] at h
      subst h
      refine ⟨fun hw => ?_, fun hq => ?_, h3⟩
      · rcases h1 hw with h | h | h
        · exact .inl h
        · exact .inr (.inl (mem_set_ne hp h (by simp)))
        · exact .inr (.inr h)
      · rcases h2 hq with h | h | h | h
        · exact .inl h
        · exact .inr (.inl (mem_set_ne hp h (by simp)))
        · exact .inr (.inr (.inl (mem_set_ne hp h (by simp))))
        · exact .inr (.inr (.inr h))
  | fire j =>
    simp only [step] at h
    split at h <;> cases h
    rename_i hc
    exact ⟨fun _ => .inl hc.2, fun _ => .inl hc.2, h3⟩
  | cons j =>
    simp only [step] at h
    rcases hp : s.cons[j]? with _ | p
    · rw [hp] at h; cases h
    · rw [hp] at h
      cases p <;> simp only [reduceCtorEq] at h
      case reset =>
        split at h <;> cases h
        · rename_i hz
          simp only [Bool.and_eq_true, beq_iff_eq] at hz
          refine ⟨fun hw => ?_, fun hq => ?_, h3⟩
          · rcases h1 hw with h | h | h
            · exact .inl h
            · exact .inr (.inl h)
            · exact .inr (.inr (mem_set_ne hp h (by simp)))
          · rcases h2 hq with h | h | h | h | h | h
            · exact .inl h
            · exact .inr (.inl h)
            · exact .inr (.inr (.inl h))
            · exact .inr (.inr (.inr (.inl (mem_set_ne hp h (by simp)))))
            · exact .inr (.inr (.inr (.inr (.inl (mem_set_ne hp h (by simp))))))
            · exact .inr (.inr (.inr (.inr (.inr (mem_set_ne hp h (by simp))))))
        · exact ⟨fun _ => .inr (.inr (mem_set_new hp)), fun _ => .inr (.inr (.inr (.inl (mem_set_new hp)))), h3⟩
      case exch =>
        cases h
        exact ⟨fun h => by simp at h, fun _ => .inr (.inr (.inr (.inr (.inl (mem_set_new hp))))), h3⟩
      case notify =>
        cases h
        exact ⟨fun _ => .inl (by simp), fun _ => .inl (by simp), h3⟩
  | deq j =>
    simp only [step] at h
    split at h <;> cases h
    rename_i a q hp hq
    refine ⟨h1, fun _ => .inr (.inr (.inr (.inr (.inl (List.mem_of_getElem? hp))))), ?_⟩
    simp [h3, hq]
  | empty j =>
    simp only [step] at h
    split at h <;> cases h
    rename_i hp hq
    refine ⟨fun hw => ?_, fun hn => absurd hq hn, h3⟩
    rcases h1 hw with h | h | h
    · exact .inl h
    · exact .inr (.inl h)
    · exact .inr (.inr (mem_set_ne hp h (by simp)))
  | more j =>
    simp only [step] at h
    rcases hp : s.cons[j]? with _ | p
    · rw [hp] at h; cases h
    · rw [hp] at h
      cases p <;> simp only [Option.some.injEq, reduceCtorEq] at h
      subst h
      refine ⟨fun hw => ?_, fun hq => .inr (.inr (.inr (.inr (.inr (mem_set_new hp))))), h3⟩
      rcases h1 hw with h | h | h
      · exact .inl h
      · exact .inr (.inl h)
      · exact .inr (.inr (mem_set_ne hp h (by simp)))

theorem inv_run {b : Bool} : ∀ (as : List (Act α)) (s s' : St α), Inv s → run b s as = some s' → Inv s' := by
  intro as
  induction as with
  | nil => intro s s' hi h; cases h; exact hi
  | cons a as ih =>
    intro s s' hi h
    simp only [run] at h
    rcases e : step b s a with _ | s1
    · rw [e] at h; cases h
    · rw [e] at h; exact ih s1 s' (inv_step hi e) h

end EvQ
end Salticidae
