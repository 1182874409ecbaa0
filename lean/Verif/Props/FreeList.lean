import Verif.Spec.FreeList
import Verif.Lemmas.FreeList
/-!
Property C38: the free list.
-/
namespace Salticidae
open FreeList Spec.FreeList

namespace FreeList

theorem linked_of_chain {node : Nat → Node} : ∀ {l : List Nat} {t : Option Nat}, Chain node t l → Linked (fun u => (node u).next) t l
  | [], _, h => h
  | _ :: _, _, h => ⟨h.1, linked_of_chain h.2⟩

/-- The history agrees with the phases. -/
def Agrees (s : St) : Prop := ∀ u, place u s.log = if u < s.alloc then (if s.phase u = .used then .used else .free) else .absent

theorem place_snoc (u : Nat) (log : List Ev) (e : Ev) : place u (log ++ [e]) = after u (place u log) e := by
  simp [place, List.foldl_append]

theorem agrees_init : Agrees init := fun u => by simp [init, place]

theorem agrees_call {s : St} {i : Nat} {op : Op} (k : Inv s) (a : Agrees s) (hb : (call s i op).bad = false) : Agrees (call s i op) := by
  intro u
  have au := a u
  cases op with
  | new =>
    have := k.fresh s.alloc (Nat.le_refl _)
    show place u (s.log ++ [.new s.alloc]) = if u < s.alloc + 1 then (if s.phase u = .used then .used else .free) else .absent
    rw [place_snoc, au]
    simp only [after]
    by_cases e : s.alloc = u
    · subst e; simp [this.2]
    · rw [if_neg e]
      by_cases hu : u < s.alloc
      · have : u < s.alloc + 1 := by omega
        simp [hu, this]
      · have : ¬ u < s.alloc + 1 := by omega
        simp [hu, this]
  | ref v => exact au
  | push v =>
    have hc : s.phase v = .used ∧ v < s.alloc := by
      simp only [call, St.setPc, St.setPhase] at hb
      split at hb
      · assumption
      · cases hb
    simp only [call, if_pos hc, St.setPc, St.setPhase]
    rw [place_snoc, au]
    simp only [after, upd_apply]
    by_cases e : v = u
    · subst e; simp [hc.1, hc.2]
    · simp [e, Ne.symm e]
  | release v =>
    have hc : v ∈ s.held i := by
      simp only [call] at hb
      split at hb
      · assumption
      · cases hb
    simp only [call, if_pos hc]
    exact au
  | pop => exact au

theorem agrees_same {s s' : St} (a : Agrees s) (h1 : s'.log = s.log) (h2 : s'.alloc = s.alloc)
    (h3 : ∀ u, s'.phase u = .used ↔ s.phase u = .used) : Agrees s' := by
  intro u
  rw [h1, h2, a u]
  simp [h3 u]

theorem agrees_micro {s s' : St} {i : Nat} {ch : Bool} (k : Inv s) (a : Agrees s) (h : micro s i ch = some s') : Agrees s' := by
  unfold micro at h
  split at h
  all_goals (try cases h)
  case h_2 => exact agrees_same a rfl rfl (fun _ => Iff.rfl)
  case h_3 => split <;> exact agrees_same a rfl rfl (fun _ => Iff.rfl)
  case h_4 => exact agrees_same a rfl rfl (fun _ => Iff.rfl)
  case h_5 u b c hp =>
    have hu : b = true ∨ (b = false ∧ (s.node u).refcnt = 1) → s.phase u ≠ .used := by
      intro h e
      rcases h with rfl | ⟨rfl, h⟩
      · have := (k.lv u i).2 (by rw [hp]; rfl)
        rw [e] at this; cases this
      · have h1 := k.cnt u
        have h2 := k.hold i u
        rw [hp] at h2
        simp only [Pc.holds, if_true] at h2
        have := List.count_le_length (a := i) (l := s.holders u)
        rw [e] at h1
        simp only [Phase.base] at h1
        omega
    refine agrees_same a ?_ ?_ ?_
    · unfold release; simp only; split <;> split <;> rfl
    · unfold release; simp only; split <;> split <;> rfl
    · intro v
      unfold release
      simp only
      split
      · split
        · rename_i hb
          have := hu (.inl hb)
          simp only [St.setPhase, St.setPc, St.setCnt, upd_apply]
          by_cases e : v = u
          · subst e; simp [this]
          · simp [e]
        · exact Iff.rfl
      · split
        · have := hu (.inl ‹_›)
          simp only [St.setPhase, St.setPc, St.setCnt, upd_apply]
          by_cases e : v = u
          · subst e; simp [this]
          · simp [e]
        · rename_i hn hb
          simp only [ne_eq, Decidable.not_not] at hn
          have := hu (.inr ⟨by simpa using hb, hn⟩)
          simp only [St.setPhase, St.setPc, St.setCnt, St.delHolder, upd_apply]
          by_cases e : v = u
          · subst e; simp [this]
          · simp [e]
  case h_6 => exact agrees_same a rfl rfl (fun _ => Iff.rfl)
  case h_7 => exact agrees_same a rfl rfl (fun _ => Iff.rfl)
  case h_8 u t c hp =>
    have hph := (k.pt u i).2 (by rw [hp]; rfl)
    split
    · refine agrees_same a rfl rfl ?_
      intro v
      simp only [St.setPhase, St.setPc, upd_apply]
      by_cases e : v = u
      · subst e; simp [hph]
      · simp [e]
    · exact agrees_same a rfl rfl (fun _ => Iff.rfl)
  case h_9 u c hp =>
    have hph := (k.en u i).2 (by rw [hp]; rfl)
    refine agrees_same a rfl rfl ?_
    intro v
    simp only [St.setPhase, St.setPc, St.setCnt, upd_apply]
    by_cases e : v = u
    · subst e; simp [hph]
    · simp [e]
  case h_10 => split <;> exact agrees_same a rfl rfl (fun _ => Iff.rfl)
  case h_11 => exact agrees_same a rfl rfl (fun _ => Iff.rfl)
  case h_12 => split <;> exact agrees_same a rfl rfl (fun _ => Iff.rfl)
  case h_13 => exact agrees_same a rfl rfl (fun _ => Iff.rfl)
  case h_14 u nv hp =>
    split
    · rename_i hc
      simp only [Bool.and_eq_true, beq_iff_eq] at hc
      obtain ⟨hal, hm⟩ := top_alloc k hc.2
      have hnu : s.phase u ≠ .used := by
        intro e
        have := (k.mem u).1 hm
        rw [e] at this
        simp at this
      intro v
      simp only [St.setPhase, St.setPc, upd_apply]
      rw [place_snoc, a v]
      simp only [after]
      by_cases e : u = v
      · subst e; simp [hal, hnu]
      · simp [e, Ne.symm e]
    · exact agrees_same a rfl rfl (fun _ => Iff.rfl)

theorem agrees_step {s s' : St} {a : Act} (k : Inv s) (ag : Agrees s) (h : step s a = some s') (hb : s'.bad = false) : Agrees s' := by
  cases a with
  | call i op =>
    simp only [step] at h
    split at h
    · cases h; exact agrees_call k ag hb
    · cases h
  | micro i ch => exact agrees_micro k ag h
  | clear u =>
    simp only [step] at h
    split at h
    · cases h; exact agrees_same ag rfl rfl (fun _ => Iff.rfl)
    · cases h

theorem both_run : ∀ {l : List Act} {s s' : St}, Inv s → Agrees s → run s l = some s' → s'.bad = false → Inv s' ∧ Agrees s'
  | [], _, _, k, a, h, _ => by cases h; exact ⟨k, a⟩
  | x :: l, s, s', k, a, h, hb => by
    simp only [run] at h
    cases hx : step s x with
    | none => rw [hx] at h; cases h
    | some u =>
      rw [hx] at h
      have hbu : u.bad = false := bad_run h hb
      exact both_run (inv_step (fun _ => k) hx hbu) (agrees_step k a hx hbu) h hb

end FreeList

/-- C38, first part: whatever threads do, as long as each pushes only nodes that are in use and releases only references it holds, a node is
returned by pop only while it is free, and it is free from a push to the next pop: it never has two owners. -/
theorem C38_one_owner (l : List FreeList.Act) (s : FreeList.St) (h : FreeList.run FreeList.init l = some s) (hb : s.bad = false) (u : Nat) :
    place u s.log ≠ .wrong := by
  have := (both_run inv_init agrees_init h hb).2 u
  rw [this]
  split
  · split <;> simp
  · simp

/-- C38, second part: the list is never cyclic and contains only free nodes; a free node that is not in it is one that some thread is busy with. -/
theorem C38_list (l : List FreeList.Act) (s : FreeList.St) (h : FreeList.run FreeList.init l = some s) (hb : s.bad = false) :
    ∃ nodes : List Nat, Linked (fun u => (s.node u).next) s.top nodes ∧ nodes.Nodup ∧ (∀ u ∈ nodes, place u s.log = .free) ∧
      ∀ u, place u s.log = .free → u ∈ nodes ∨ ∃ i, Busy s i u := by
  obtain ⟨k, a⟩ := both_run inv_init agrees_init h hb
  refine ⟨s.list, linked_of_chain k.chain, k.nodup, ?_, ?_⟩
  · intro u hu
    have hm := (k.mem u).1 hu
    have hnu : s.phase u ≠ .used := by intro e; rw [e] at hm; simp at hm
    rw [a u, if_pos, if_neg hnu]
    by_cases hl : u < s.alloc
    · exact hl
    · exact absurd (k.fresh u (by omega)).2 hnu
  · intro u hu
    rw [a u] at hu
    split at hu
    · split at hu
      · cases hu
      · rename_i hnu
        cases hp : s.phase u with
        | used => exact absurd hp hnu
        | listed => exact .inl ((k.mem u).2 (.inl hp))
        | entering i => exact .inl ((k.mem u).2 (.inr ⟨i, hp⟩))
        | leaving i =>
          right
          have := (k.lv u i).1 hp
          refine ⟨i, .inr ⟨?_, ?_⟩⟩
          · unfold St.idle; split
            · rename_i e; rw [e] at this; cases this
            · rfl
          · cases hq : s.pc i with
            | push v => rw [hq] at this; cases this; simp
            | rel v b c =>
              rw [hq] at this
              cases b <;> cases this
              simp
            | _ => rw [hq] at this; cases this
        | putting i =>
          right
          have := (k.pt u i).1 hp
          refine ⟨i, .inr ⟨?_, ?_⟩⟩
          · unfold St.idle; split
            · rename_i e; rw [e] at this; cases this
            · rfl
          · cases hq : s.pc i <;> rw [hq] at this <;> simp only [Pc.puts] at this <;> cases this <;> simp
        | pending =>
          right
          have hne := k.pend u hp
          obtain ⟨i, hi⟩ := List.exists_mem_of_ne_nil _ hne
          have hc : 0 < (s.holders u).count i := List.count_pos_iff.2 hi
          rw [k.hold i u] at hc
          refine ⟨i, ?_⟩
          by_cases hh : 0 < (s.held i).count u
          · exact .inl (List.count_pos_iff.1 hh)
          · right
            have hx : 0 < (s.pc i).holds u := by omega
            refine ⟨?_, ?_⟩
            · unfold St.idle; split
              · rename_i e; rw [e] at hx; cases hx
              · rfl
            · cases hq : s.pc i with
              | rel v b c =>
                cases b <;> rw [hq] at hx <;> simp only [Pc.holds] at hx
                · split at hx
                  · rename_i e; subst e; simp
                  · cases hx
                · cases hx
              | pop4 v =>
                rw [hq] at hx
                simp only [Pc.holds] at hx
                split at hx
                · rename_i e; subst e; simp
                · cases hx
              | pop5 v t =>
                rw [hq] at hx
                simp only [Pc.holds] at hx
                split at hx
                · rename_i e; subst e; simp
                · cases hx
              | _ => rw [hq] at hx; cases hx
    · cases hu

/-- C38, third part: when no thread is in an operation and no references are held, the free nodes are in the list, each once, so none is lost. -/
theorem C38_no_loss (l : List FreeList.Act) (s : FreeList.St) (h : FreeList.run FreeList.init l = some s) (hb : s.bad = false)
    (hi : ∀ i, s.idle i = true) (hh : ∀ i, s.held i = []) :
    ∃ nodes : List Nat, Linked (fun u => (s.node u).next) s.top nodes ∧ nodes.Nodup ∧ ∀ u, u ∈ nodes ↔ place u s.log = .free := by
  obtain ⟨nodes, h1, h2, h3, h4⟩ := C38_list l s h hb
  refine ⟨nodes, h1, h2, fun u => ⟨h3 u, fun hu => ?_⟩⟩
  rcases h4 u hu with h | ⟨i, h⟩
  · exact h
  · rcases h with h | h
    · rw [hh i] at h; cases h
    · rw [hi i] at h; cases h.1

/-- A run of one operation alone. -/
def FreeList.solo (i n : Nat) : List FreeList.Act := List.replicate n (.micro i true)

/-- A history with two threads: thread 1 takes a reference to a node of the list and reads its next pointer, stalls while thread 0 pops the node and the one below,
and pushes the first back: the ABA schedule.  The push is delayed until thread 1 gives up its reference, and both nodes are then in the list. -/
def exampleHistory38 : List FreeList.Act :=
  [.call 0 .new, .call 0 .new, .call 0 (.push 0)] ++ FreeList.solo 0 6 ++ [.call 0 (.push 1)] ++ FreeList.solo 0 6 ++
  [.call 1 .pop, .micro 1 true, .micro 1 true, .micro 1 true, .micro 1 true] ++ -- thread 1 is about to set top to node 0
  [.call 0 .pop] ++ FreeList.solo 0 6 ++ [.call 0 .pop] ++ FreeList.solo 0 6 ++
  [.call 0 (.push 1)] ++ FreeList.solo 0 2 ++ FreeList.solo 1 6 ++ [.call 0 (.push 0)] ++ FreeList.solo 0 6

example : (FreeList.run FreeList.init exampleHistory38).map (fun s => (s.bad, s.log, s.list)) =
    some (false, [.new 0, .new 1, .push 0, .push 1, .pop 1, .pop 0, .push 1, .push 0], [0, 1]) := by decide

end Salticidae
