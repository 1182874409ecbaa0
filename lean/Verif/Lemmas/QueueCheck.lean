import Verif.Lemmas.QueueRun
/-!
Checking the conditions on given schedules (for the examples).
-/
namespace Salticidae
namespace Queue
open FreeList (upd_apply)

variable {α : Type} [DecidableEq α]

def timelyCheck (n : Nat) (p : St α × Act α) : Bool :=
  match p.2 with
  | .go i _ =>
    match p.1.fl.pc i with
    | .push u => (List.range n).all fun j => match p.1.pc j with
      | .e13 _ true _ u' => u' != u
      | _ => true
    | _ => true
  | .start _ _ => true

def freshCheck (p : St α × Act α) : Bool :=
  match p.2 with
  | .go i _ =>
    match p.1.fl.pc i, p.1.pc i with
    | .ref2 u n, .m2 _ => p.1.qhead == u || (p.1.fl.node u).refcnt != n
    | _, _ => true
  | .start _ _ => true

def Act.of : Act α → Nat
  | .start i _ | .go i _ => i

theorem other_idle {B n : Nat} : ∀ {acts : List (Act α)} {s : St α}, (∀ j, n ≤ j → ∃ r, s.pc j = .idle r) → (∀ a ∈ acts, a.of < n) →
    ∀ p ∈ trace B s acts, ∀ j, n ≤ j → ∃ r, p.1.pc j = .idle r
  | [], _, _, _ => by intro p hp; cases hp
  | a :: as, s, h, ha => by
    intro p hp
    simp only [trace, List.mem_cons] at hp
    rcases hp with rfl | hp
    · exact h
    · split at hp
      · rename_i s' hs
        refine other_idle (s := s') (fun j hj => ?_) (fun a ha' => ha a (by simp [ha'])) p hp
        have hne : j ≠ a.of := by have := ha a (by simp); omega
        obtain ⟨r, hr⟩ := h j hj
        refine ⟨r, ?_⟩
        cases a with
        | start i c =>
          simp only [step] at hs
          split at hs
          · cases hs
            simp only [St.setPc, St.rcd, upd_apply]
            rw [if_neg (show ¬ j = i from hne)]; exact hr
          · cases hs
        | go i ch =>
          simp only [step] at hs
          split at hs
          · rw [(local_pc hs j hne).1]; exact hr
          · obtain ⟨fl, _, h2⟩ := Option.map_eq_some_iff.mp hs
            subst h2; exact hr
      · cases hp

theorem timely_of_check {B : Nat} {acts : List (Act α)} (n : Nat) (ho : ∀ a ∈ acts, a.of < n)
    (h : ∀ p ∈ trace B (init α) acts, timelyCheck n p = true) : Timely B acts := by
  intro p hp
  have hi := other_idle (fun j _ => ⟨.none, rfl⟩) ho p hp
  have hc := h p hp
  obtain ⟨s, a⟩ := p
  cases a with
  | start => trivial
  | go i ch =>
    intro u hu j e t hj
    simp only at hu
    simp only [timelyCheck, hu, List.all_eq_true, List.mem_range] at hc
    by_cases hjn : j < n
    · have := hc j hjn
      simp only at hj
      simp [hj] at this
    · obtain ⟨r, hr⟩ := hi j (by omega)
      simp only at hr hj
      rw [hr] at hj; cases hj

theorem fresh_of_check {B : Nat} {acts : List (Act α)} (h : ∀ p ∈ trace B (init α) acts, freshCheck p = true) : Fresh B acts := by
  intro p hp
  have hc := h p hp
  obtain ⟨s, a⟩ := p
  cases a with
  | start => trivial
  | go i ch =>
    intro u n hu hp _ hn
    simp only at hu hp hn
    simp only [freshCheck, hu, hp, hn] at hc
    simpa using hc

def turnCheck (n : Nat) (p : St α × Act α) : Bool :=
  match p.2 with
  | .start _ _ => (List.range n).all fun j => match p.1.pc j with
    | .idle _ => true
    | _ => false
  | .go _ _ => true

theorem turn_of_check {B : Nat} {acts : List (Act α)} (n : Nat) (ho : ∀ a ∈ acts, a.of < n)
    (h : ∀ p ∈ trace B (init α) acts, turnCheck n p = true) : InTurn B acts := by
  intro p hp
  have hi := other_idle (fun j _ => ⟨.none, rfl⟩) ho p hp
  have hc := h p hp
  obtain ⟨s, a⟩ := p
  cases a with
  | go => trivial
  | start i c =>
    intro j
    simp only [turnCheck, List.all_eq_true, List.mem_range] at hc
    by_cases hjn : j < n
    · have := hc j hjn
      split at this
      · rename_i r hr; exact ⟨r, hr⟩
      · cases this
    · exact hi j (by omega)

open Spec.Queue in
def quietCheck (n : Nat) (l : List (Ev α)) : Bool :=
  l.all (fun e => decide (threadOf e < n)) && (List.range n).all fun i => match (ofThread i l).getLast? with
    | some (.call _ _) => false
    | _ => true

open Spec.Queue in
theorem quiet_of_check {l : List (Ev α)} (n : Nat) (h : quietCheck n l = true) : Quiet l := by
  simp only [quietCheck, Bool.and_eq_true, List.all_eq_true, decide_eq_true_eq, List.mem_range] at h
  intro i c hc
  by_cases hi : i < n
  · have := h.2 i hi
    rw [hc] at this
    cases this
  · have hm := List.mem_of_getLast? hc
    simp only [ofThread, List.mem_filter] at hm
    exact hi (h.1 _ hm.1)

end Queue
end Salticidae
