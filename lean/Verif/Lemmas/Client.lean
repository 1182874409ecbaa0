import Verif.Spec.Client
namespace Salticidae
namespace Client
open Spec.Client

/-- Induction on the history, from its beginning. -/
theorem history_ind {P : List Ev → Prop} (h0 : P []) (h1 : ∀ h e, P h → P (h ++ [e])) (h : List Ev) : P h := by
  rw [← List.reverse_reverse h]
  induction h.reverse with
  | nil => exact h0
  | cons e l ih => rw [List.reverse_cons]; exact h1 _ _ ih

theorem lookup_erase (m : Map) (a b : Nat) : lookup (erase m a) b = if b = a then none else lookup m b := by
  unfold lookup erase
  induction m with
  | nil => simp
  | cons e m ih =>
    by_cases h : e.1 = a
    · rw [List.filter_cons_of_neg (by simp [h]), ih, List.find?_cons]
      by_cases hb : b = a
      · simp [hb]
      · have : ¬ e.1 = b := by omega
        simp [hb, this]
    · rw [List.filter_cons_of_pos (by simp [h]), List.find?_cons, List.find?_cons]
      by_cases hb : e.1 = b
      · have : b ≠ a := by omega
        simp [hb, this]
      · simp only [hb, decide_false, ih]

theorem lookup_insert (m : Map) (a c b : Nat) (h : lookup m a = none) :
    lookup (insert m a c) b = if b = a then some c else lookup m b := by
  unfold insert
  rw [h]
  simp only [Option.isSome_none, Bool.false_eq_true, if_false]
  unfold lookup at *
  rw [List.find?_append]
  by_cases hb : b = a
  · subst hb
    rw [Option.map_eq_none_iff] at h
    simp [h]
  · have : ¬ a = b := by omega
    simp [hb, List.find?_cons, this]

theorem lookup_step (addr : Nat → Nat) (m : Map) (e : Ev) (b : Nat) : lookup (step addr m e) b =
    match e with
    | .setup c => if b = addr c then some c else lookup m b
    | .teardown c => if b = addr c then none else lookup m b := by
  cases e with
  | setup c =>
    simp only [step]
    rw [lookup_insert _ _ _ _ (by simp [lookup_erase]), lookup_erase]
    split <;> rfl
  | teardown c => simp only [step, lookup_erase]

theorem run_snoc (addr : Nat → Nat) (h : List Ev) (e : Ev) : run addr (h ++ [e]) = step addr (run addr h) e := by
  simp [run]

theorem setUp_append (h k : List Ev) : setUp (h ++ k) = setUp k ++ setUp h := by
  induction h with
  | nil => simp [setUp]
  | cons e h ih => cases e <;> simp [setUp, ih]

theorem mem_setUp (h : List Ev) (c : Nat) : c ∈ setUp h ↔ .setup c ∈ h := by
  induction h with
  | nil => simp [setUp]
  | cons e h ih => cases e <;> simp [setUp, ih] ; exact or_comm

theorem current_mem {addr : Nat → Nat} {h : List Ev} {a c : Nat} (e : current addr h a = some c) :
    addr c = a ∧ .setup c ∈ h ∧ .teardown c ∉ h := by
  unfold current at e
  have h1 := List.find?_some e
  have h2 := List.mem_of_find?_eq_some e
  rw [mem_setUp] at h2
  simp at h1
  exact ⟨h1.1, h2, h1.2⟩

theorem current_none {addr : Nat → Nat} {h : List Ev} {a : Nat} :
    current addr h a = none ↔ ∀ c, addr c = a → .setup c ∈ h → .teardown c ∈ h := by
  unfold current
  rw [List.find?_eq_none]
  simp [mem_setUp]
  grind

theorem current_setup {addr : Nat → Nat} {h : List Ev} {a c : Nat} (hc : .teardown c ∉ h) :
    current addr (h ++ [.setup c]) a = if a = addr c then some c else current addr h a := by
  unfold current
  rw [setUp_append]
  simp only [setUp, List.nil_append, List.cons_append, List.find?_cons]
  by_cases ha : a = addr c
  · simp [ha, hc]
  · have : ¬ addr c = a := by omega
    simp [ha, this]

theorem current_teardown {addr : Nat → Nat} {h : List Ev} {a c : Nat} :
    current addr (h ++ [.teardown c]) a = (setUp h).find? (fun d => d ≠ c && (addr d = a && !h.contains (.teardown d))) := by
  unfold current
  rw [setUp_append]
  simp only [setUp, List.nil_append]
  congr 1
  funext d
  by_cases e : d = c <;> simp [e, Bool.and_comm]

theorem current_teardown_ne {addr : Nat → Nat} {h : List Ev} {a c : Nat} (hne : current addr h a ≠ some c) :
    current addr (h ++ [.teardown c]) a = current addr h a := by
  rw [current_teardown]
  unfold current at *
  generalize setUp h = l at *
  induction l with
  | nil => rfl
  | cons d l ih =>
    rw [List.find?_cons] at hne
    rw [List.find?_cons, List.find?_cons]
    by_cases hd : (addr d = a && !h.contains (.teardown d)) = true
    · rw [hd] at hne ⊢
      have : d ≠ c := by intro e; exact hne (by rw [e])
      simp [this]
    · simp only [Bool.not_eq_true] at hd
      rw [hd] at hne ⊢
      simp only [Bool.and_false]
      exact ih hne

theorem current_teardown_other {addr : Nat → Nat} {h : List Ev} {a c : Nat} (ha : a ≠ addr c) :
    current addr (h ++ [.teardown c]) a = current addr h a :=
  current_teardown_ne (fun e => ha (current_mem e).1.symm)

end Client
end Salticidae
