import Verif.Lemmas.QueueRun
/-!
How many blocks there are, and where they are when operations run one after the other.
-/
namespace Salticidae
namespace Queue
open FreeList (upd upd_apply upd_self upd_other)
open Spec.Queue (isAdd)

variable {α : Type} [DecidableEq α]

/-- A thread in an unbounded enqueue or in rewind. -/
def Pc.grows : Pc α → Bool
  | .w1 _ | .w2 _ _ | .w3 _ _ | .w4 _ _ _ | .w5 _ _ _ | .w6 _ _ _ | .w7 _ _ | .w8 _ | .w9 _ _ | .w10 _ _ _ | .w11 _ _ _ | .w12 _ _ _ => true
  | p => p.unb

theorem local_grows {B : Nat} {s s' : St α} {i : Nat} {ch : Bool} {r : FreeList.Res} (h : localStep B s i ch r = some s')
    (hx : (s.pc i).grows = false) : (s'.pc i).grows = false := by
  simp only [localStep] at h
  cases hp : s.pc i <;> rw [hp] at hx <;>
    simp only [hp, enqStep, deqStep, rewStep, mpmcStep, addStep, Option.none_or, Option.or_none, Option.some_or, gotBlk] at h
  all_goals (repeat' split at h)
  all_goals first
    | (cases h; done)
    | (cases hx; done)
    | (cases h
       simp only [St.ret, St.setPc, St.rcd, St.setBlk, St.setStat, St.call, upd_self]
       first | rfl | exact hx | (split <;> first | rfl | exact hx))

theorem grows_step {B : Nat} {s s' : St α} {a : Act α} (k : ∀ j, (s.pc j).grows = false) (h : step B s a = some s') (ha : a.grows = false) :
    ∀ j, (s'.pc j).grows = false := by
  intro j
  cases a with
  | start i c =>
    simp only [step] at h
    split at h
    · cases h
      simp only [St.setPc, St.rcd, upd_apply]
      split
      · cases c with
        | rewind e => cases ha
        | enq e u => exact ha
        | _ => rfl
      · exact k j
    · cases h
  | go i ch =>
    simp only [step] at h
    split at h
    · rename_i r hr
      by_cases hij : j = i
      · subst hij; exact local_grows h (k j)
      · rw [(local_pc h j hij).1]; exact k j
    · simp only [Option.map_eq_some_iff] at h
      obtain ⟨fl, h1, h2⟩ := h
      subst h2
      exact k j

/-- In the first step of a round of set_capacity. -/
def Pc.adds : Pc α → Bool
  | .a1 _ => true
  | _ => false

/-- As many blocks as rounds of set_capacity have gone beyond that step, and the first one. -/
def Counted (s : St α) : Prop :=
  ∃ L : List Nat, L.Nodup ∧ (∀ j, j ∈ L ↔ (s.pc j).adds = true) ∧ s.fl.alloc + L.length = 1 + s.log.countP isAdd

theorem micro_alloc {s s' : FreeList.St} {i : Nat} {ch : Bool} (h : FreeList.micro s i ch = some s') : s'.alloc = s.alloc := by
  simp only [FreeList.micro] at h
  split at h <;> (try (cases h)) <;> simp only [FreeList.release, FreeList.St.setPc, FreeList.St.setCnt, FreeList.St.addHolder, FreeList.St.setFreed, FreeList.St.setNext,
    FreeList.St.setPhase, FreeList.St.delHolder] <;> (repeat' split) <;> rfl

theorem call_alloc (s : FreeList.St) (i : Nat) (op : FreeList.Op) : (FreeList.call s i op).alloc = s.alloc + if op = .new then 1 else 0 := by
  cases op <;> simp only [FreeList.call, FreeList.St.setPc, FreeList.St.setPhase] <;> (repeat' split) <;> simp_all

/-- A step of a thread that is not in the first step of a round of set_capacity. -/
theorem local_alloc {B : Nat} {s s' : St α} {i : Nat} {ch : Bool} {r : FreeList.Res} (h : localStep B s i ch r = some s') (hx : (s.pc i).grows = false)
    (ha : (s.pc i).adds = false) : s'.fl.alloc = s.fl.alloc ∧ (s'.pc i).adds = false ∧ s'.log.countP isAdd = s.log.countP isAdd := by
  simp only [localStep] at h
  cases hp : s.pc i <;> rw [hp] at hx ha <;>
    simp only [hp, enqStep, deqStep, rewStep, mpmcStep, addStep, Option.none_or, Option.or_none, Option.some_or, gotBlk] at h
  all_goals (repeat' split at h)
  all_goals first
    | (cases h; done)
    | (cases hx; done)
    | (cases ha; done)
    | (cases h
       simp only [St.ret, St.setPc, St.rcd, St.setBlk, St.setStat, St.call, upd_self, call_alloc, FreeList.St.setFreed, List.countP_append, List.countP_cons, List.countP_nil, isAdd]
       simp [Pc.adds]
       done)
    | (cases h
       simp only [St.ret, St.setPc, St.rcd, St.setBlk, St.setStat, St.call, upd_self, call_alloc, FreeList.St.setFreed, List.countP_append, List.countP_cons, List.countP_nil, isAdd]
       simp [Pc.adds]
       split <;> rfl)
    | skip
  all_goals (simp_all [Pc.grows, Pc.unb])

theorem counted_step {B : Nat} {s s' : St α} {a : Act α} (k : Counted s) (kg : ∀ j, (s.pc j).grows = false) (h : step B s a = some s') : Counted s' := by
  obtain ⟨L, hn, hm, hc⟩ := k
  cases a with
  | start i c =>
    simp only [step] at h
    split at h
    · rename_i y hy
      cases h
      by_cases e : c = .add
      · subst e
        have hi : i ∉ L := by rw [hm, hy]; simp [Pc.adds]
        refine ⟨i :: L, List.nodup_cons.mpr ⟨hi, hn⟩, fun j => ?_, ?_⟩
        · simp only [St.setPc, St.rcd, upd_apply, List.mem_cons, hm]
          split
          · simp_all [start, Pc.adds]
          · simp_all
        · simp [St.setPc, St.rcd, isAdd, List.countP_cons]; omega
      · refine ⟨L, hn, fun j => ?_, ?_⟩
        · simp only [St.setPc, St.rcd, upd_apply, hm]
          split
          · rename_i hj
            rw [hj, hy]
            cases c <;> simp_all [start, Pc.adds]
          · rfl
        · have : isAdd (.call i c) = false := by cases c <;> simp_all [isAdd]
          simp [St.setPc, St.rcd, this, List.countP_cons]; exact hc
    · cases h
  | go i ch =>
    simp only [step] at h
    split at h
    · rename_i r hr
      by_cases ha : (s.pc i).adds = true
      · cases hp : s.pc i <;> rw [hp] at ha <;> (try (cases ha; done))
        simp only [localStep, hp, enqStep, deqStep, rewStep, mpmcStep, addStep, Option.none_or, Option.or_none, Option.some_or] at h
        cases h
        have hi : i ∈ L := by rw [hm, hp]; rfl
        refine ⟨L.erase i, hn.erase i, fun j => ?_, ?_⟩
        · simp only [St.setPc, St.call, upd_apply, hn.mem_erase_iff, hm]
          split <;> simp_all [Pc.adds]
        · have := List.length_pos_of_mem hi
          simp only [St.setPc, St.call, call_alloc, List.length_erase_of_mem hi]
          simp
          omega
      · have ha : (s.pc i).adds = false := by simpa using ha
        have := local_alloc h (kg i) ha
        refine ⟨L, hn, fun j => ?_, by rw [this.1, this.2.2]; exact hc⟩
        by_cases hij : j = i
        · subst hij; rw [hm, this.2.1, ha]
        · rw [(local_pc h j hij).1, hm]
    · simp only [Option.map_eq_some_iff] at h
      obtain ⟨fl, h1, h2⟩ := h
      subst h2
      exact ⟨L, hn, hm, by show fl.alloc + _ = _; rw [micro_alloc h1]; exact hc⟩

theorem counted_init : Counted (init α) := ⟨[], List.nodup_nil, fun j => by simp [init, Pc.adds], rfl⟩

theorem counted_run {B : Nat} : ∀ {acts : List (Act α)} {s s' : St α}, Counted s → (∀ j, (s.pc j).grows = false) → (∀ a ∈ acts, a.grows = false) →
    run B s acts = some s' → Counted s' ∧ ∀ j, (s'.pc j).grows = false
  | [], s, s', k, kg, _, h => by cases h; exact ⟨k, kg⟩
  | a :: as, s, s', k, kg, ha, h => by
    simp only [run, Option.bind_eq_some_iff] at h
    obtain ⟨s1, h1, h2⟩ := h
    exact counted_run (counted_step k kg h1) (grows_step kg h1 (ha a (by simp))) (fun x hx => ha x (by simp [hx])) h2

/-- A list without duplicates is not longer than one that contains its elements. -/
theorem length_le_of_subset : ∀ {l m : List Nat}, l.Nodup → (∀ x ∈ l, x ∈ m) → l.length ≤ m.length
  | [], _, _, _ => Nat.zero_le _
  | a :: l, m, hn, h => by
    have ha := h a (by simp)
    rw [List.nodup_cons] at hn
    have := length_le_of_subset (m := m.erase a) hn.2 (fun x hx => by
      have hxa : x ≠ a := fun e => hn.1 (e ▸ hx)
      exact (List.mem_erase_of_ne hxa).mpr (h x (by simp [hx])))
    have h0 := List.length_pos_of_mem ha
    rw [List.length_erase_of_mem ha] at this
    simp only [List.length_cons]; omega

/-- Distinct numbers below n are at most n. -/
theorem length_le_of_lt {l : List Nat} (hn : l.Nodup) {n : Nat} (h : ∀ x ∈ l, x < n) : l.length ≤ n := by
  have := length_le_of_subset hn (m := List.range n) (fun x hx => List.mem_range.mpr (h x hx))
  simpa using this

theorem cont_length (blk : Nat → Blk α) (slot : Nat → Nat → Option α) (l : List Nat) :
    (cont blk slot l).length = (l.map fun b => (blk b).tail - (blk b).head).sum := by
  induction l with
  | nil => rfl
  | cons b l ih => simp only [cont, List.flatMap_cons, List.length_append, List.map_cons, List.sum_cons] at ih ⊢; rw [ih]; simp

theorem sum_le_mul {l : List Nat} {f : Nat → Nat} {B : Nat} (h : ∀ x ∈ l, f x ≤ B) : (l.map f).sum ≤ l.length * B := by
  induction l with
  | nil => simp
  | cons a l ih =>
    have h1 := h a (by simp)
    have h2 := ih (fun x hx => h x (by simp [hx]))
    simp only [List.map_cons, List.sum_cons, List.length_cons, Nat.add_mul]
    omega

/-- The queue holds at most what its blocks can. -/
theorem length_bound {B : Nat} {m : Mode} {s : St α} (k : Inv B m s) {q : Spec.Queue.Q α} (hq : Spec.Queue.replay Spec.Queue.empty s.log = some q) :
    q.q.length ≤ s.fl.alloc * B := by
  obtain ⟨q', h1, h2, _⟩ := k.leg
  rw [hq] at h1; cases h1
  have h3 := congrArg List.length h2
  rw [List.length_map, cont_length] at h3
  have h4 : s.chain.length ≤ s.fl.alloc := length_le_of_lt k.nd (fun x hx => by
    have := (k.mem x).1 hx
    exact alloc_of k (by rw [this]; simp))
  have h5 : (s.chain.map fun b => (s.blk b).tail - (s.blk b).head).sum ≤ s.chain.length * B :=
    sum_le_mul (fun x hx => by have := k.tl x ((k.mem x).1 hx); omega)
  have h6 := Nat.mul_le_mul_right B h4
  omega

end Queue
end Salticidae
