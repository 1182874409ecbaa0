import Verif.Spec.Queue
import Verif.Lemmas.FreeList
/-!
Chains of blocks and what is in them.
-/
namespace Salticidae
namespace Queue
open FreeList (upd upd_apply upd_self upd_other)

variable {α : Type}

theorem upd_upd {β : Type} (f : Nat → β) (i : Nat) (x y : β) : upd (upd f i x) i y = upd f i y := by
  funext j; simp only [upd_apply]; split <;> rfl

theorem upd2_apply {β : Type} (f : Nat → Nat → β) (b k c j : Nat) (x : β) : upd2 f b k x c j = if c = b ∧ j = k then x else f c j := rfl

/-- The blocks of the list follow each other. -/
def Linked (blk : Nat → Blk α) : List Nat → Prop
  | [] => True
  | [u] => (blk u).next = none
  | u :: v :: l => (blk u).next = some v ∧ Linked blk (v :: l)

theorem linked_frame {blk blk' : Nat → Blk α} : ∀ {l : List Nat}, (∀ u ∈ l, (blk' u).next = (blk u).next) → Linked blk l → Linked blk' l
  | [], _, h => h
  | [u], hf, h => (hf u (by simp)).trans h
  | u :: v :: l, hf, h => ⟨(hf u (by simp)).trans h.1, linked_frame (l := v :: l) (fun w hw => hf w (List.mem_cons_of_mem _ hw)) h.2⟩

theorem linked_last {blk : Nat → Blk α} : ∀ {l : List Nat} {u : Nat}, l.Nodup → Linked blk l → u ∈ l → ((blk u).next = none ↔ l.getLast? = some u)
  | [v], u, _, h, hu => by
    simp only [List.mem_singleton] at hu; subst hu
    exact ⟨fun _ => rfl, fun _ => h⟩
  | v :: w :: l, u, hn, h, hu => by
    rw [List.getLast?_cons_cons]
    simp only [List.mem_cons] at hu
    have hn2 := (List.nodup_cons.1 hn).2
    rcases hu with hu | hu
    · subst hu
      have hv := (List.nodup_cons.1 hn).1
      constructor
      · intro h0; rw [h.1] at h0; cases h0
      · intro h0; exact absurd (List.mem_of_getLast? h0) hv
    · exact linked_last hn2 h.2 (by simpa using hu)

theorem linked_next_mem {blk : Nat → Blk α} : ∀ {l : List Nat} {u v : Nat}, Linked blk l → u ∈ l → (blk u).next = some v → v ∈ l
  | [w], u, v, h, hu, hv => by
    simp only [List.mem_singleton] at hu; subst hu
    rw [show (blk u).next = none from h] at hv; cases hv
  | w :: x :: l, u, v, h, hu, hv => by
    simp only [List.mem_cons] at hu
    rcases hu with hu | hu
    · subst hu; rw [h.1] at hv; cases hv; simp
    · exact List.mem_cons_of_mem _ (linked_next_mem (l := x :: l) h.2 (by simpa using hu) hv)

theorem linked_tail {blk : Nat → Blk α} : ∀ {l : List Nat}, Linked blk l → Linked blk l.tail
  | [], h => h
  | [_], _ => trivial
  | _ :: _ :: _, h => h.2

/-- A block is added at the end. -/
theorem linked_snoc {blk : Nat → Blk α} {t n : Nat} {x : Blk α} (hx : x.next = some n) : ∀ {l : List Nat}, l.Nodup → n ∉ l → l.getLast? = some t →
    (blk n).next = none → Linked blk l → Linked (upd blk t x) (l ++ [n])
  | [u], _, hm, hl, hn, _ => by
    simp only [List.getLast?_singleton, Option.some.injEq] at hl
    subst hl
    simp only [List.mem_singleton] at hm
    exact ⟨by rw [upd_self]; exact hx, by show (upd blk u x n).next = none; rw [upd_other _ _ hm]; exact hn⟩
  | u :: v :: l, hd, hm, hl, hn, h => by
    rw [List.getLast?_cons_cons] at hl
    have h1 := List.nodup_cons.1 hd
    have hut : u ≠ t := fun e => h1.1 (e ▸ List.mem_of_getLast? hl)
    exact ⟨by rw [upd_other _ _ hut]; exact h.1, linked_snoc hx h1.2 (fun hh => hm (List.mem_cons_of_mem _ hh)) hl hn h.2⟩

/-- The elements in the blocks of a list. -/
def cont (blk : Nat → Blk α) (slot : Nat → Nat → Option α) (l : List Nat) : List (Option α) :=
  l.flatMap (fun b => (List.range' (blk b).head ((blk b).tail - (blk b).head)).map (slot b))

theorem cont_nil (blk : Nat → Blk α) (slot : Nat → Nat → Option α) : cont blk slot [] = [] := rfl
theorem cont_cons (blk : Nat → Blk α) (slot : Nat → Nat → Option α) (b : Nat) (l : List Nat) :
    cont blk slot (b :: l) = (List.range' (blk b).head ((blk b).tail - (blk b).head)).map (slot b) ++ cont blk slot l := rfl
theorem cont_append (blk : Nat → Blk α) (slot : Nat → Nat → Option α) (l m : List Nat) :
    cont blk slot (l ++ m) = cont blk slot l ++ cont blk slot m := by simp [cont]

theorem cont_congr {blk blk' : Nat → Blk α} {slot slot' : Nat → Nat → Option α} {l : List Nat}
    (h : ∀ b ∈ l, (blk' b).head = (blk b).head ∧ (blk' b).tail = (blk b).tail ∧
      ∀ k, (blk b).head ≤ k → k < (blk b).tail → slot' b k = slot b k) : cont blk' slot' l = cont blk slot l := by
  induction l with
  | nil => rfl
  | cons b l ih =>
    rw [cont_cons, cont_cons, ih (fun c hc => h c (List.mem_cons_of_mem _ hc))]
    obtain ⟨h1, h2, h3⟩ := h b (by simp)
    rw [h1, h2]
    congr 1
    apply List.map_congr_left
    intro k hk
    rw [List.mem_range'_1] at hk
    exact h3 k hk.1 (by omega)

theorem cont_nothing {blk : Nat → Blk α} {slot : Nat → Nat → Option α} {b : Nat} {l : List Nat} (h : (blk b).tail ≤ (blk b).head) :
    cont blk slot (b :: l) = cont blk slot l := by
  rw [cont_cons, Nat.sub_eq_zero_of_le h]; rfl

theorem cont_first {blk : Nat → Blk α} {slot : Nat → Nat → Option α} {b : Nat} {l : List Nat} (h : (blk b).head < (blk b).tail) :
    cont blk slot (b :: l) = slot b (blk b).head :: ((List.range' ((blk b).head + 1) ((blk b).tail - ((blk b).head + 1))).map (slot b) ++ cont blk slot l) := by
  rw [cont_cons, show (blk b).tail - (blk b).head = ((blk b).tail - ((blk b).head + 1)) + 1 by omega, List.range'_succ]; rfl

/-- The front element is taken. -/
theorem cont_take {blk : Nat → Blk α} {slot : Nat → Nat → Option α} {b : Nat} {l : List Nat} {x : Blk α} (h : (blk b).head < (blk b).tail) (hb : b ∉ l)
    (hx : x.head = (blk b).head + 1) (hx2 : x.tail = (blk b).tail) :
    cont blk slot (b :: l) = slot b (blk b).head :: cont (upd blk b x) slot (b :: l) := by
  rw [cont_first h, cont_cons, upd_self, hx, hx2]
  congr 2
  symm; apply cont_congr
  intro c hc
  have : c ≠ b := fun e => hb (e ▸ hc)
  rw [upd_other _ _ this]
  exact ⟨rfl, rfl, fun _ _ _ => rfl⟩

/-- An element is put back. -/
theorem cont_put {blk : Nat → Blk α} {slot : Nat → Nat → Option α} {b : Nat} {l : List Nat} {x : Blk α} (hb : b ∉ l)
    (hx : x.head + 1 = (blk b).head) (hx2 : x.tail = (blk b).tail) (h : (blk b).head ≤ (blk b).tail) :
    cont (upd blk b x) slot (b :: l) = slot b x.head :: cont blk slot (b :: l) := by
  have h1 : ((upd blk b x) b).head < ((upd blk b x) b).tail := by rw [upd_self]; omega
  rw [cont_first h1, upd_self, cont_cons, hx, hx2]
  congr 2
  apply cont_congr
  intro c hc
  have : c ≠ b := fun e => hb (e ▸ hc)
  rw [upd_other _ _ this]
  exact ⟨rfl, rfl, fun _ _ _ => rfl⟩

/-- An element is added at the end. -/
theorem cont_add {blk : Nat → Blk α} {slot : Nat → Nat → Option α} {t : Nat} {x : Blk α} {y : Option α} (hx : x.head = (blk t).head)
    (hx2 : x.tail = (blk t).tail + 1) (h : (blk t).head ≤ (blk t).tail) : ∀ {l : List Nat}, l.Nodup → l.getLast? = some t →
    cont (upd blk t x) (upd2 slot t (blk t).tail y) l = cont blk slot l ++ [y]
  | [u], _, hl => by
    simp only [List.getLast?_singleton, Option.some.injEq] at hl
    subst hl
    rw [cont_cons, cont_cons, upd_self, hx, hx2, cont_nil, cont_nil, List.append_nil, List.append_nil,
      show (blk u).tail + 1 - (blk u).head = (blk u).tail - (blk u).head + 1 by omega, List.range'_concat, List.map_append]
    congr 1
    · apply List.map_congr_left
      intro k hk
      rw [List.mem_range'_1] at hk
      rw [upd2_apply, if_neg]; omega
    · simp only [List.map_cons, List.map_nil, upd2_apply]
      rw [if_pos]
      refine ⟨trivial, by omega⟩
  | u :: v :: l, hd, hl => by
    rw [List.getLast?_cons_cons] at hl
    have h1 := List.nodup_cons.1 hd
    have hut : u ≠ t := fun e => h1.1 (e ▸ List.mem_of_getLast? hl)
    rw [cont_cons, cont_add hx hx2 h h1.2 hl, cont_cons blk slot u, upd_other _ _ hut, List.append_assoc]
    congr 1
    apply List.map_congr_left
    intro k hk
    rw [upd2_apply, if_neg]
    intro hh; exact hut hh.1

end Queue
end Salticidae
