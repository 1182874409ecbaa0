import Verif.Model.WQueue
import Verif.Lemmas.Weak
/-
The queue in the memory model of C++ as long as it needs one block only: invariants.
-/
namespace Salticidae
namespace WQ
open Weak

/-- The value at a timestamp. -/
abbrev St.at (s : St) (l : Loc) (t : Nat) : Option (Msg Loc) := look ini s.mem l t

/-- The thread holds a reference to block 0. -/
def holds (th : Thr) : Bool :=
  match th.pc with
  | .e3 .. | .e4 .. | .ec .. | .ed .. | .ee .. | .f0 .. => true
  | _ => false

/-- The thread is in `enqueue` and its element has no place yet. -/
def pre (th : Thr) : Bool :=
  match th.pc with
  | .e0 .. | .e1 .. | .e2 .. | .e3 .. | .e4 .. | .ec .. | .f0 _ (.retry _) => true
  | _ => false

/-- The place of the thread's element, as long as it has not done its exchange. -/
def tick : Pc → Option Nat
  | .ed _ _ i | .ee _ _ i | .f0 _ (.fin i) | .x i => some i
  | _ => none

/-- What a producer may be doing. -/
def legalP (size : Nat) : Pc → Bool
  | .idle | .e0 _ | .x _ | .nt => true
  | .e1 _ t => t == 0
  | .e2 _ t c => t == 0 && 1 ≤ c
  | .e3 _ t => t == 0
  | .e4 _ t => t == 0
  | .ec _ t tt => t == 0 && tt < size
  | .ed _ t _ => t == 0
  | .ee _ t _ => t == 0
  | .f0 u (.retry _) => u == 0
  | .f0 u (.fin _) => u == 0
  | _ => false

/-- What the consumer may be doing. -/
def legalC : Pc → Bool
  | .idle | .c0 | .c1 | .d0 | .cn => true
  | .d1 h => h == 0
  | .d2 h _ => h == 0
  | .d3 h => h == 0
  | .d5 h _ => h == 0
  | .d6 h _ => h == 0
  | .d7 h _ => h == 0
  | .d8 h _ => h == 0
  | _ => false

def okLoc : Loc → Bool
  | .sig | .bhead 0 | .btail 0 | .refcnt 0 | .elem 0 _ | .avail 0 _ => true
  | _ => false

/-- Steps that write nothing. -/
inductive Q (size : Nat) (s : St) (i : Nat) (v v' : View Loc) : Pc → Pc → Prop
  | e0 (e) : i ≠ 0 → Q size s i v v' (.e0 e) (.e1 e 0)
  | e1 (e c) : i ≠ 0 → 1 ≤ c → Q size s i v v' (.e1 e 0) (.e2 e 0 c)
  | e2 (e c) : i ≠ 0 → Q size s i v v' (.e2 e 0 c) (.e0 e)
  | e3 (e) : i ≠ 0 → Q size s i v v' (.e3 e 0) (.e4 e 0)
  | e4 (e tt) : i ≠ 0 → tt < size → Q size s i v v' (.e4 e 0) (.ec e 0 tt)
  | ec (e tt) : i ≠ 0 → Q size s i v v' (.ec e 0 tt) (.f0 0 (.retry e))
  | fire : i = 0 → 0 < s.fd → Q size s i v v' .idle .c0
  | more : i = 0 → Q size s i v v' .d0 .cn
  | d0 : i = 0 → Q size s i v v' .d0 (.d1 0)
  | d1 (t m) : i = 0 → s.at (.bhead 0) t = some m → v.get (.bhead 0) ≤ t → Q size s i v v' (.d1 0) (.d2 0 m.val)
  | d2i (t hh) : i = 0 → v.get (.btail 0) ≤ t → t ≤ hh → Q size s i v v' (.d2 0 hh) .idle
  | d2d (t hh) : i = 0 → v.get (.btail 0) ≤ t → t ≤ hh → Q size s i v v' (.d2 0 hh) (.d3 0)
  | d2 (t hh) : i = 0 → t ≤ s.acc.length → hh < t → Q size s i v v' (.d2 0 hh) (.d5 0 hh)
  | d3 : i = 0 → Q size s i v v' (.d3 0) .idle
  | d6 (t hh m) : i = 0 → s.at (.avail 0 hh) t = some m → m.val = 1 → m.view.le v' → Q size s i v v' (.d6 0 hh) (.d7 0 hh)

/-- What a step does while there is one block only; the list: calls of enqueue (thread, element). -/
inductive Move (size : Nat) (s : St) : List (Nat × Nat) → St → Prop
  | call (i th e) : i ≠ 0 → s.ths[i]? = some th → th.pc = .idle → Move size s [(i, e)] (s.go i th.view (.e0 e))
  | sync (i th v') : s.ths[i]? = some th → th.view.le v' → Move size s [] (s.go i v' th.pc)
  | quiet (i th v' p') : s.ths[i]? = some th → th.view.le v' → Q size s i th.view v' th.pc p' → Move size s [] (s.go i v' p')
  | inc (i th v' e c x m) : i ≠ 0 → s.ths[i]? = some th → th.view.le v' → th.pc = .e2 e 0 c → s.at (.refcnt 0) (last s.mem (.refcnt 0)) = some m →
      x.loc = .refcnt 0 → x.ts = last s.mem (.refcnt 0) + 1 → x.val = m.val + 1 → Move size s [] ({ s with mem := x :: s.mem }.go i v' (.e3 e 0))
  | dec (i th v' k x m) : i ≠ 0 → s.ths[i]? = some th → th.view.le v' → th.pc = .f0 0 k → ((∃ e, k = .retry e) ∨ ∃ a, k = .fin a) → s.at (.refcnt 0) (last s.mem (.refcnt 0)) = some m →
      x.loc = .refcnt 0 → x.ts = last s.mem (.refcnt 0) + 1 → x.val = m.val - 1 → Move size s [] ({ s with mem := x :: s.mem }.go i v' k.next)
  | place (i th v' e x) : i ≠ 0 → s.ths[i]? = some th → th.view.le v' → th.pc = .ec e 0 s.acc.length →
      x.loc = .btail 0 → x.ts = s.acc.length + 1 → x.val = s.acc.length + 1 → s.acc.length + 1 ≤ v'.get (.btail 0) →
      Move size s [] ({ s with mem := x :: s.mem, acc := s.acc ++ [e] }.go i v' (.ed e 0 s.acc.length))
  | put (i th v' e tt x) : i ≠ 0 → s.ths[i]? = some th → th.view.le v' → th.pc = .ed e 0 tt →
      x.loc = .elem 0 tt → x.ts = last s.mem (.elem 0 tt) + 1 → x.val = e → last s.mem (.elem 0 tt) + 1 ≤ v'.get (.elem 0 tt) →
      Move size s [] ({ s with mem := x :: s.mem, race := s.race || decide (th.view.get (.elem 0 tt) < last s.mem (.elem 0 tt)) }.go i v' (.ee e 0 tt))
  | pub (i th v' e tt x) : i ≠ 0 → s.ths[i]? = some th → th.view.le v' → th.pc = .ee e 0 tt →
      x.loc = .avail 0 tt → x.val = 1 → s.at (.avail 0 tt) x.ts = none → v'.le x.view →
      Move size s [] ({ s with mem := x :: s.mem }.go i v' (.f0 0 (.fin tt)))
  | ex (i th v' a x m p') : i ≠ 0 → s.ths[i]? = some th → th.view.le v' → th.pc = .x a → s.at .sig (last s.mem .sig) = some m →
      x.loc = .sig → x.ts = last s.mem .sig + 1 → x.val = 0 → v'.le x.view → m.view.le x.view → p' = (if m.val = 1 then .nt else .idle) →
      Move size s [] ({ s with mem := x :: s.mem }.go i v' p')
  | nt (i th) : i ≠ 0 → s.ths[i]? = some th → th.pc = .nt → Move size s [] ({ s with fd := s.fd + 1 }.go i th.view .idle)
  | c0 (th) : s.ths[0]? = some th → th.pc = .c0 → Move size s [] ({ s with fd := 0 }.go 0 th.view .c1)
  | c1 (th v' x m) : s.ths[0]? = some th → th.view.le v' → th.pc = .c1 → s.at .sig (last s.mem .sig) = some m →
      x.loc = .sig → x.ts = last s.mem .sig + 1 → x.val = 1 → m.view.le x.view → m.view.le v' →
      Move size s [] ({ s with mem := x :: s.mem }.go 0 v' .d0)
  | cn (th) : s.ths[0]? = some th → th.pc = .cn → Move size s [] ({ s with fd := s.fd + 1 }.go 0 th.view .idle)
  | d5 (th v' hh x) : s.ths[0]? = some th → th.view.le v' → th.pc = .d5 0 hh → x.loc = .bhead 0 → th.view.get (.bhead 0) < x.ts →
      x.ts ≤ v'.get (.bhead 0) → x.val = hh + 1 → Move size s [] ({ s with mem := x :: s.mem }.go 0 v' (.d6 0 hh))
  | d7 (th hh) : s.ths[0]? = some th → th.pc = .d7 0 hh →
      Move size s [] ({ s with race := s.race || (plainLoad ini s.mem th.view (.elem 0 hh)).2, out := s.out ++ [(plainLoad ini s.mem th.view (.elem 0 hh)).1] }.go 0 th.view (.d8 0 hh))
  | d8 (th v' hh x) : s.ths[0]? = some th → th.view.le v' → th.pc = .d8 0 hh → x.loc = .avail 0 hh → x.val = 0 →
      Move size s [] ({ s with mem := x :: s.mem }.go 0 v' .d0)

/-- One block: what the threads do, the reference count, the tail index. -/
structure I1 (size : Nat) (s : St) : Prop where
  leg : ∀ i th, s.ths[i]? = some th → (if i = 0 then legalC th.pc else legalP size th.pc) = true
  loc : ∀ m ∈ s.mem, okLoc m.loc = true
  rc : Cont ini s.mem (.refcnt 0)
  rv : ∀ t m, s.at (.refcnt 0) t = some m → 1 ≤ m.val
  rl : ∀ m, s.at (.refcnt 0) (last s.mem (.refcnt 0)) = some m → m.val = 1 + s.ths.countP holds
  bt : Cont ini s.mem (.btail 0)
  bv : ∀ t m, s.at (.btail 0) t = some m → m.val = t
  bl : last s.mem (.btail 0) = s.acc.length
  sg : Cont ini s.mem .sig
  cap : s.acc.length + s.ths.countP pre ≤ size

theorem untouched {s : St} {l : Loc} {t : Nat} {m : Msg Loc} (h : ∀ m ∈ s.mem, okLoc m.loc = true) (hl : okLoc l = false) (hm : s.at l t = some m) : m.val = ini l :=
  look_ini (fun y hy he => by have := h y hy; rw [he, hl] at this; cases this) hm

theorem ld_some {s s' : St} {i : Nat} {th : Thr} {o : Order} {l : Loc} {ts : Nat} {k : Nat → Pc} (h : ld s i th o l ts k = some s') :
    ∃ x v', s.at l ts = some x ∧ th.view.get l ≤ ts ∧ th.view.le v' ∧ ts ≤ v'.get l ∧ (o.acquires = true → x.view.le v') ∧ s' = s.go i v' (k x.val) := by
  simp only [ld, Option.map_eq_some_iff] at h
  obtain ⟨r, hr, rfl⟩ := h
  obtain ⟨x, h1, h2, h3, h4, h5, h6⟩ := load_some hr
  exact ⟨x, r.2, h1, h3, h4, h5, h6, by rw [h2]⟩

theorem st_some {s s' : St} {i : Nat} {th : Thr} {o : Order} {l : Loc} {ts x : Nat} {k : Pc} (h : st s i th o l ts x k = some s') :
    ∃ y v', y.loc = l ∧ y.ts = ts ∧ y.val = x ∧ th.view.get l < ts ∧ s.at l ts = none ∧ th.view.le v' ∧ ts ≤ v'.get l ∧
      (o.releases = true → v'.le y.view) ∧ s' = { s with mem := y :: s.mem }.go i v' k := by
  simp only [st, Option.map_eq_some_iff] at h
  obtain ⟨r, hr, rfl⟩ := h
  obtain ⟨y, h0, h1, h2, h3, h4, h5, h6, h7, h8⟩ := store_some hr
  exact ⟨y, r.2, h1, h2, h3, h4, h5, h6, h7, h8, by rw [h0]⟩

theorem up_some {s s' : St} {i : Nat} {th : Thr} {o : Order} {l : Loc} {ts : Nat} {f : Nat → Nat} {k : Nat → Pc} (hc : Cont ini s.mem l) (h : up s i th o l ts f k = some s') :
    ∃ x y v', s.at l (last s.mem l) = some x ∧ y.loc = l ∧ y.ts = last s.mem l + 1 ∧ y.val = f x.val ∧ th.view.le v' ∧ last s.mem l + 1 ≤ v'.get l ∧
      (o.acquires = true → x.view.le v') ∧ x.view.le y.view ∧ (o.releases = true → v'.le y.view) ∧ s' = { s with mem := y :: s.mem }.go i v' (k x.val) := by
  simp only [up, Option.map_eq_some_iff] at h
  obtain ⟨r, hr, rfl⟩ := h
  obtain ⟨x, y, h0, h1, h2, h3, h4, h5, h6, h7, h8, h9, ha, hb⟩ := rmw_some hr
  have := cont_last hc h0 h6
  subst this
  exact ⟨x, y, r.2.2, h0, h3, h4, h5, h7, h8, h9, ha, hb, by rw [h1, h2]⟩

theorem cas_some {s s' : St} {i : Nat} {th : Thr} {o fo : Order} {l : Loc} {ts a b : Nat} {ch : Bool} {yes no : Pc} (hc : Cont ini s.mem l)
    (h : cas s i th o fo l ts a b ch yes no = some s') :
    (∃ v', th.view.le v' ∧ s' = s.go i v' no) ∨
    ∃ x y v', s.at l (last s.mem l) = some x ∧ x.val = a ∧ y.loc = l ∧ y.ts = last s.mem l + 1 ∧ y.val = b ∧ th.view.le v' ∧ last s.mem l + 1 ≤ v'.get l ∧
      s' = { s with mem := y :: s.mem }.go i v' yes := by
  simp only [cas] at h
  split at h
  · rename_i z v hz
    obtain ⟨x0, g1, g2, g3, g4, g5, g6⟩ := load_some hz
    split at h
    · rename_i hzz
      simp only [Option.map_eq_some_iff] at h
      obtain ⟨r, hr, rfl⟩ := h
      obtain ⟨x, y, h0, h1, h2, h3, h4, h5, h6, h7, h8, h9, ha, hb⟩ := rmw_some hr
      rw [g1] at h0
      cases h0
      have := cont_last hc g1 h6
      subst this
      exact .inr ⟨x0, y, r.2.2, g1, by rw [← hzz.1]; exact g2.symm, h3, h4, h5, h7, h8, by rw [h2]⟩
    · cases h
      exact .inl ⟨v, g4, rfl⟩
  · cases h

/-- The call of enqueue that an act is. -/
def Act.call? : Act → Option (Nat × Nat)
  | .call i e => some (i, e)
  | _ => none

theorem countP_pos {p : Thr → Bool} {l : List Thr} {i : Nat} {th : Thr} (h : l[i]? = some th) (hp : p th = true) : 0 < l.countP p :=
  List.countP_pos_iff.mpr ⟨th, List.mem_of_getElem? h, hp⟩

theorem exec_move {size : Nat} {s s' : St} {i ts : Nat} {th : Thr} {ch : Bool} (h1 : I1 size s) (ht : s.ths[i]? = some th)
    (h : exec size s i th ts ch = some s') : Move size s [] s' := by
  have hleg := h1.leg i th ht
  have hib : i < s.ths.length := by rw [List.getElem?_eq_some_iff] at ht; exact ht.1
  by_cases hi : i = 0
  · subst hi
    simp only [if_true] at hleg
    unfold exec at h
    cases hpc : th.pc <;> simp only [hpc, legalC, beq_iff_eq, Bool.false_eq_true] at h hleg
    case idle => cases h
    case c0 => cases h; exact .c0 th ht hpc
    case c1 =>
      obtain ⟨x, y, v', g1, g2, g3, g4, g5, g6, g7, g8, g9, rfl⟩ := up_some h1.sg h
      exact .c1 th v' y x ht g5 hpc g1 g2 g3 g4 g8 (g7 rfl)
    case cn => cases h; exact .cn th ht hpc
    case d0 =>
      obtain ⟨x, v', g1, g2, g3, g4, g5, rfl⟩ := ld_some h
      have : x.val = 1 := untouched h1.loc rfl g1
      rw [this]
      exact .quiet 0 th v' _ ht g3 (hpc ▸ .d0 rfl)
    case d1 =>
      subst hleg
      obtain ⟨x, v', g1, g2, g3, g4, g5, rfl⟩ := ld_some h
      exact .quiet 0 th v' _ ht g3 (hpc ▸ .d1 ts x rfl g1 g2)
    case d2 h0 hh =>
      subst hleg
      obtain ⟨x, v', g1, g2, g3, g4, g5, rfl⟩ := ld_some h
      have hx : x.val = ts := h1.bv _ _ g1
      have hl := look_le g1
      rw [h1.bl] at hl
      rw [hx]
      split
      · split
        · exact .quiet 0 th v' _ ht g3 (hpc ▸ .d2i ts hh rfl g2 (by assumption))
        · exact .quiet 0 th v' _ ht g3 (hpc ▸ .d2d ts hh rfl g2 (by assumption))
      · exact .quiet 0 th v' _ ht g3 (hpc ▸ .d2 ts hh rfl hl (by omega))
    case d3 =>
      subst hleg
      obtain ⟨x, v', g1, g2, g3, g4, g5, rfl⟩ := ld_some h
      have : x.val = 0 := untouched h1.loc rfl g1
      simp only [this, if_true]
      exact .quiet 0 th v' _ ht g3 (hpc ▸ .d3 rfl)
    case d5 h0 hh =>
      subst hleg
      obtain ⟨y, v', g1, g2, g3, g4, g5, g6, g7, g8, rfl⟩ := st_some h
      exact .d5 th v' hh y ht g6 hpc g1 (g2 ▸ g4) (g2 ▸ g7) g3
    case d6 h0 hh =>
      subst hleg
      obtain ⟨x, v', g1, g2, g3, g4, g5, rfl⟩ := ld_some h
      by_cases hx : x.val = 1
      · simp only [hx, if_true]
        exact .quiet 0 th v' _ ht g3 (hpc ▸ .d6 ts hh x rfl g1 hx (g5 rfl))
      · simp only [hx, if_false]
        have := Move.sync (size := size) 0 th v' ht g3
        rwa [hpc] at this
    case d7 h0 hh =>
      subst hleg
      cases h
      exact .d7 th hh ht hpc
    case d8 h0 hh =>
      subst hleg
      obtain ⟨y, v', g1, g2, g3, g4, g5, g6, g7, g8, rfl⟩ := st_some h
      exact .d8 th v' hh y ht g6 hpc g1 g3
  · simp only [hi, if_false] at hleg
    unfold exec at h
    cases hpc : th.pc <;> simp only [hpc, legalP, beq_iff_eq, Bool.false_eq_true, Bool.and_eq_true, decide_eq_true_eq] at h hleg
    case idle => cases h
    case e0 e =>
      obtain ⟨x, v', g1, g2, g3, g4, g5, rfl⟩ := ld_some h
      have : x.val = 1 := untouched h1.loc rfl g1
      rw [this]
      exact .quiet i th v' _ ht g3 (hpc ▸ .e0 e hi)
    case e1 e t =>
      subst hleg
      obtain ⟨x, v', g1, g2, g3, g4, g5, rfl⟩ := ld_some h
      have := h1.rv _ _ g1
      rw [if_neg (by omega)]
      exact .quiet i th v' _ ht g3 (hpc ▸ .e1 e _ hi this)
    case e2 e t c =>
      obtain ⟨rfl, hc⟩ := hleg
      rcases cas_some h1.rc h with ⟨v', g1, rfl⟩ | ⟨x, y, v', g1, g2, g3, g4, g5, g6, g7, rfl⟩
      · exact .quiet i th v' _ ht g1 (hpc ▸ .e2 e c hi)
      · exact .inc i th v' e c y x hi ht g6 hpc g1 g3 g4 (by rw [g5, g2])
    case e3 e t =>
      subst hleg
      obtain ⟨x, v', g1, g2, g3, g4, g5, rfl⟩ := ld_some h
      have : x.val = 0 := untouched h1.loc rfl g1
      simp only [this]
      exact .quiet i th v' _ ht g3 (hpc ▸ .e3 e hi)
    case e4 e t =>
      subst hleg
      obtain ⟨x, v', g1, g2, g3, g4, g5, rfl⟩ := ld_some h
      have hx : x.val = ts := h1.bv _ _ g1
      have hl := look_le g1
      rw [h1.bl] at hl
      have := countP_pos (p := pre) ht (by simp [pre, hpc])
      have := h1.cap
      rw [hx, if_neg (by omega)]
      exact .quiet i th v' _ ht g3 (hpc ▸ .e4 e ts hi (by omega))
    case ec e t tt =>
      obtain ⟨rfl, hc⟩ := hleg
      rw [Option.map_eq_some_iff] at h
      obtain ⟨s1, h, rfl⟩ := h
      rcases cas_some h1.bt h with ⟨v', g1, rfl⟩ | ⟨x, y, v', g1, g2, g3, g4, g5, g6, g7, rfl⟩
      · simp only [St.go, List.getElem?_set, hib, if_true, Option.map_some, Option.some.injEq, reduceCtorEq, if_false]
        exact .quiet i th v' _ ht g1 (hpc ▸ .ec e tt hi)
      · have hx := h1.bv _ _ g1
        rw [g2, h1.bl] at hx
        rw [h1.bl] at g4 g7
        subst hx
        simp only [St.go, List.getElem?_set, hib, if_true, Option.map_some]
        exact .place i th v' e y hi ht g6 hpc g3 g4 g5 g7
    case ed e t tt =>
      subst hleg
      cases h
      refine .put i th _ e tt _ hi ht ?_ hpc rfl rfl rfl ?_
      · exact View.le_raise _ _ _
      · simp only [plainStore, View.get_raise, if_true]; omega
    case ee e t tt =>
      subst hleg
      obtain ⟨y, v', g1, g2, g3, g4, g5, g6, g7, g8, rfl⟩ := st_some h
      exact .pub i th v' e tt y hi ht g6 hpc g1 g3 (g2 ▸ g5) (g8 rfl)
    case f0 u k =>
      have hk : (∃ e, k = .retry e) ∨ ∃ a, k = .fin a := by cases k <;> simp_all [legalP]
      have hu : u = 0 := by cases k <;> simp_all [legalP]
      subst hu
      obtain ⟨x, y, v', g1, g2, g3, g4, g5, g6, g7, g8, g9, rfl⟩ := up_some h1.rc h
      have := h1.rl _ g1
      have := countP_pos (p := holds) ht (by simp [holds, hpc])
      rw [if_pos (by omega)]
      exact .dec i th v' k y x hi ht g5 hpc hk g1 g2 g3 g4
    case x a =>
      obtain ⟨x, y, v', g1, g2, g3, g4, g5, g6, g7, g8, g9, rfl⟩ := up_some h1.sg h
      exact .ex i th v' a y x _ hi ht g5 hpc g1 g2 g3 g4 (g9 rfl) g8 rfl
    case nt => cases h; exact .nt i th hi ht hpc

theorem step_move {size : Nat} {s s' : St} {a : Act} (h1 : I1 size s) (h : step size s a = some s') : Move size s a.call?.toList s' := by
  cases a with
  | call i e =>
    simp only [step] at h
    split at h
    · cases h
    · split at h
      · split at h
        · cases h; exact .call i _ e (by assumption) (by assumption) (by assumption)
        · cases h
      · cases h
  | step i ts ch =>
    simp only [step] at h
    split at h
    · exact exec_move h1 (by assumption) h
    · cases h
  | fire =>
    simp only [step] at h
    split at h
    · rename_i th hth
      split at h
      · rename_i hc
        cases h
        exact .quiet 0 th _ _ hth (View.le_refl _) (hc.1 ▸ .fire rfl hc.2)
      · cases h
    · cases h
  | more =>
    simp only [step] at h
    split at h
    · rename_i th hth
      split at h
      · rename_i hc
        cases h
        exact .quiet 0 th _ _ hth (View.le_refl _) (hc ▸ .more rfl)
      · cases h
    · cases h
  | sync i j =>
    simp only [step] at h
    split at h
    · rename_i a b ha hb
      cases h
      exact .sync i a _ ha (View.le_join_left _ _)
    · cases h

theorem cnt_set {p : Thr → Bool} {l : List Thr} {i : Nat} {th : Thr} (h : l[i]? = some th) (a : Thr) :
    (l.set i a).countP p + (p th).toNat = l.countP p + (p a).toNat := by
  obtain ⟨hi, rfl⟩ := List.getElem?_eq_some_iff.mp h
  have := countP_pos (p := p) h
  rw [List.countP_set hi]
  cases hp : p l[i] <;> cases hq : p a <;> simp_all

theorem set_get {l : List Thr} {i j : Nat} {th a b : Thr} (h : l[i]? = some th) (hb : (l.set i a)[j]? = some b) : (j = i ∧ b = a) ∨ (j ≠ i ∧ l[j]? = some b) := by
  obtain ⟨hi, rfl⟩ := List.getElem?_eq_some_iff.mp h
  rw [List.getElem?_set] at hb
  split at hb
  · rename_i he; subst he; simp [hi] at hb; exact .inl ⟨rfl, hb.symm⟩
  · rename_i he; exact .inr ⟨fun h => he h.symm, hb⟩

theorem I1_upd {size : Nat} {s s' : St} (h : I1 size s) {i : Nat} {th th' : Thr} (ht : s.ths[i]? = some th) (hths : s'.ths = s.ths.set i th')
    (hleg : (if i = 0 then legalC th'.pc else legalP size th'.pc) = true) (hcap : s'.acc.length + s'.ths.countP pre ≤ size)
    (hm : (s'.mem = s.mem ∧ s'.ths.countP holds = s.ths.countP holds ∧ s'.acc.length = s.acc.length) ∨
      ∃ x, s'.mem = x :: s.mem ∧ okLoc x.loc = true ∧
        (x.loc = .refcnt 0 → x.ts = last s.mem (.refcnt 0) + 1 ∧ 1 ≤ x.val ∧ x.val = 1 + s'.ths.countP holds) ∧
        (x.loc = .btail 0 → x.ts = last s.mem (.btail 0) + 1 ∧ x.val = last s.mem (.btail 0) + 1 ∧ s'.acc.length = s.acc.length + 1) ∧
        (x.loc = .sig → x.ts = last s.mem .sig + 1) ∧
        (x.loc ≠ .refcnt 0 → s'.ths.countP holds = s.ths.countP holds) ∧ (x.loc ≠ .btail 0 → s'.acc.length = s.acc.length)) : I1 size s' := by
  have hl : ∀ j b, s'.ths[j]? = some b → (if j = 0 then legalC b.pc else legalP size b.pc) = true := by
    intro j b hb
    rw [hths] at hb
    rcases set_get ht hb with ⟨rfl, rfl⟩ | ⟨_, hb⟩
    · exact hleg
    · exact h.leg j b hb
  rcases hm with ⟨h1, h2, h3⟩ | ⟨x, h1, h2, h3, h4, h5, h6, h7⟩
  · obtain ⟨a1, a2, a3, a4, a5, a6, a7, a8, a9, a10⟩ := h
    constructor <;> (try simp only [St.at, h1, h2, h3]) <;> (try assumption)
    rw [← h3]; exact hcap
  · have hlast : ∀ l, last (x :: s.mem) l = if x.loc = l then max x.ts (last s.mem l) else last s.mem l := fun _ => rfl
    refine ⟨hl, ?_, ?_, ?_, ?_, ?_, ?_, ?_, ?_, hcap⟩
    · rw [h1]; intro m hm; rcases List.mem_cons.mp hm with rfl | hm
      · exact h2
      · exact h.loc m hm
    · rw [h1]; exact cont_cons _ h.rc fun he => (h3 he).1
    · intro t m hm
      rw [St.at, h1, look_cons] at hm
      split at hm
      · cases hm; rename_i hc; exact (h3 hc.1).2.1
      · exact h.rv t m hm
    · intro m hm
      rw [St.at, h1, look_cons] at hm
      rw [hlast] at hm
      by_cases he : x.loc = .refcnt 0
      · have := h3 he
        simp only [he, if_true, true_and] at hm
        rw [if_pos (by omega)] at hm
        cases hm
        exact this.2.2
      · simp only [he, if_false, false_and] at hm
        rw [h6 he]
        exact h.rl m hm
    · rw [h1]; exact cont_cons _ h.bt fun he => (h4 he).1
    · intro t m hm
      rw [St.at, h1, look_cons] at hm
      split at hm
      · cases hm; rename_i hc; have := h4 hc.1; omega
      · exact h.bv t m hm
    · rw [h1, hlast]
      by_cases he : x.loc = .btail 0
      · have := h4 he; have := h.bl; simp only [he, if_true]; omega
      · simp only [he, if_false]; rw [h7 he]; exact h.bl
    · rw [h1]; exact cont_cons _ h.sg h5

theorem move_cap {size : Nat} {c : List (Nat × Nat)} {s s' : St} (hm : Move size s c s') : s'.acc.length + s'.ths.countP pre ≤ s.acc.length + s.ths.countP pre + c.length := by
  have key : ∀ {i : Nat} {th : Thr} (ht : s.ths[i]? = some th) (a : Thr), _ := fun ht a => cnt_set (p := pre) ht a
  cases hm with
  | call i th e hi ht hpc => have := key ht ⟨th.view, .e0 e⟩; simp [pre, hpc, St.go] at this ⊢; omega
  | sync i th v' ht => have := key ht ⟨v', th.pc⟩; simp [pre, St.go] at this ⊢; omega
  | quiet i th v' p' ht hv hq =>
    have := key ht ⟨v', p'⟩
    obtain ⟨v, pc⟩ := th
    cases hq <;> simp [pre, St.go] at this ⊢ <;> omega
  | inc i th v' e c x m hi ht hv hpc => have := key ht ⟨v', .e3 e 0⟩; simp [pre, hpc, St.go] at this ⊢; omega
  | dec i th v' k x m hi ht hv hpc hk =>
    have := key ht ⟨v', k.next⟩
    rcases hk with ⟨e, rfl⟩ | ⟨a, rfl⟩ <;> simp [pre, hpc, St.go, K.next] at this ⊢ <;> omega
  | place i th v' e x hi ht hv hpc => have := key ht ⟨v', .ed e 0 s.acc.length⟩; simp [pre, hpc, St.go] at this ⊢; omega
  | put i th v' e tt x hi ht hv hpc => have := key ht ⟨v', .ee e 0 tt⟩; simp [pre, hpc, St.go] at this ⊢; omega
  | pub i th v' e tt x hi ht hv hpc => have := key ht ⟨v', .f0 0 (.fin tt)⟩; simp [pre, hpc, St.go] at this ⊢; omega
  | ex i th v' a x m p' hi ht hv hpc h1 h2 h3 h4 h5 h6 hp =>
    have := key ht ⟨v', p'⟩
    subst hp
    split at this <;> rename_i hc <;> simp [pre, hpc, St.go, hc] at this ⊢ <;> omega
  | nt i th hi ht hpc => have := key ht ⟨th.view, .idle⟩; simp [pre, hpc, St.go] at this ⊢; omega
  | c0 th ht hpc => have := key ht ⟨th.view, .c1⟩; simp [pre, hpc, St.go] at this ⊢; omega
  | c1 th v' x m ht hv hpc => have := key ht ⟨v', .d0⟩; simp [pre, hpc, St.go] at this ⊢; omega
  | cn th ht hpc => have := key ht ⟨th.view, .idle⟩; simp [pre, hpc, St.go] at this ⊢; omega
  | d5 th v' hh x ht hv hpc => have := key ht ⟨v', .d6 0 hh⟩; simp [pre, hpc, St.go] at this ⊢; omega
  | d7 th hh ht hpc => have := key ht ⟨th.view, .d8 0 hh⟩; simp [pre, hpc, St.go] at this ⊢; omega
  | d8 th v' hh x ht hv hpc => have := key ht ⟨v', .d0⟩; simp [pre, hpc, St.go] at this ⊢; omega

theorem I1_move {size : Nat} {c : List (Nat × Nat)} {s s' : St} (h : I1 size s) (hm : Move size s c s') (hcap : s'.acc.length + s'.ths.countP pre ≤ size) : I1 size s' := by
  have key : ∀ {i : Nat} {th : Thr} (ht : s.ths[i]? = some th) (a : Thr), _ := fun ht a => cnt_set (p := holds) ht a
  cases hm with
  | call i th e hi ht hpc =>
    have := key ht ⟨th.view, .e0 e⟩
    refine I1_upd h ht rfl (by simp [hi, legalP]) hcap (.inl ⟨rfl, ?_, rfl⟩)
    simp [holds, hpc, St.go] at this ⊢; omega
  | sync i th v' ht =>
    have := key ht ⟨v', th.pc⟩
    refine I1_upd h ht rfl (h.leg i th ht) hcap (.inl ⟨rfl, ?_, rfl⟩)
    simp [holds, St.go] at this ⊢; omega
  | quiet i th v' p' ht hv hq =>
    have := key ht ⟨v', p'⟩
    have hleg := h.leg i th ht
    obtain ⟨v, pc⟩ := th
    refine I1_upd h ht rfl ?_ hcap (.inl ⟨rfl, ?_, rfl⟩)
    · cases hq <;> simp_all [legalP, legalC]
    · cases hq <;> simp [holds, St.go] at this ⊢ <;> omega
  | inc i th v' e c x m hi ht hv hpc hm hx1 hx2 hx3 =>
    have := key ht ⟨v', .e3 e 0⟩
    refine I1_upd h ht rfl (by simp [hi, legalP]) hcap (.inr ⟨x, rfl, by rw [hx1]; rfl, ?_, ?_, ?_, ?_, ?_⟩)
    · intro _
      have := h.rl m hm
      refine ⟨hx2, by omega, ?_⟩
      simp [holds, hpc, St.go] at *; omega
    all_goals rw [hx1]; simp
    rfl
  | dec i th v' k x m hi ht hv hpc hk hm hx1 hx2 hx3 =>
    have := key ht ⟨v', k.next⟩
    have h1 := h.rl m hm
    have h2 := countP_pos (p := holds) ht (by simp [holds, hpc])
    refine I1_upd h ht rfl ?_ hcap (.inr ⟨x, rfl, by rw [hx1]; rfl, ?_, ?_, ?_, ?_, ?_⟩)
    · rcases hk with ⟨e, rfl⟩ | ⟨a, rfl⟩ <;> simp [hi, K.next, legalP]
    · intro _
      refine ⟨hx2, by omega, ?_⟩
      rcases hk with ⟨e, rfl⟩ | ⟨a, rfl⟩ <;> simp [holds, hpc, St.go, K.next] at * <;> omega
    all_goals rw [hx1]; simp
    rfl
  | place i th v' e x hi ht hv hpc hx1 hx2 hx3 hx4 =>
    have := key ht ⟨v', .ed e 0 s.acc.length⟩
    refine I1_upd h ht rfl (by simp [hi, legalP]) hcap (.inr ⟨x, rfl, by rw [hx1]; rfl, ?_, ?_, ?_, ?_, ?_⟩)
    · rw [hx1]; simp
    · intro _; rw [h.bl]; exact ⟨hx2, hx3, by simp [St.go]⟩
    · rw [hx1]; simp
    · intro _; simp [holds, hpc, St.go] at this ⊢; omega
    · rw [hx1]; simp
  | put i th v' e tt x hi ht hv hpc hx1 hx2 hx3 hx4 =>
    have := key ht ⟨v', .ee e 0 tt⟩
    refine I1_upd h ht rfl (by simp [hi, legalP]) hcap (.inr ⟨x, rfl, by rw [hx1]; rfl, ?_, ?_, ?_, ?_, fun _ => rfl⟩)
    · rw [hx1]; simp
    · rw [hx1]; simp
    · rw [hx1]; simp
    · intro _; simp [holds, hpc, St.go] at this ⊢; omega
  | pub i th v' e tt x hi ht hv hpc hx1 =>
    have := key ht ⟨v', .f0 0 (.fin tt)⟩
    refine I1_upd h ht rfl (by simp [hi, legalP]) hcap (.inr ⟨x, rfl, by rw [hx1]; rfl, ?_, ?_, ?_, ?_, fun _ => rfl⟩)
    · rw [hx1]; simp
    · rw [hx1]; simp
    · rw [hx1]; simp
    · intro _; simp [holds, hpc, St.go] at this ⊢; omega
  | ex i th v' a x m p' hi ht hv hpc hm hx1 hx2 hx3 hx4 hx5 hp =>
    have := key ht ⟨v', p'⟩
    refine I1_upd h ht rfl ?_ hcap (.inr ⟨x, rfl, by rw [hx1]; rfl, ?_, ?_, ?_, ?_, fun _ => rfl⟩)
    · subst hp; simp only [hi, if_false]; split <;> rfl
    · rw [hx1]; simp
    · rw [hx1]; simp
    · intro _; exact hx2
    · intro _; subst hp; split at this <;> rename_i hc <;> simp [holds, hpc, St.go, hc] at this ⊢ <;> omega
  | nt i th hi ht hpc =>
    have := key ht ⟨th.view, .idle⟩
    refine I1_upd h ht rfl (by simp [hi, legalP]) hcap (.inl ⟨rfl, ?_, rfl⟩)
    simp [holds, hpc, St.go] at this ⊢; omega
  | c0 th ht hpc =>
    have := key ht ⟨th.view, .c1⟩
    refine I1_upd h ht rfl rfl hcap (.inl ⟨rfl, ?_, rfl⟩)
    simp [holds, hpc, St.go] at this ⊢; omega
  | c1 th v' x m ht hv hpc hm hx1 hx2 =>
    have := key ht ⟨v', .d0⟩
    refine I1_upd h ht rfl rfl hcap (.inr ⟨x, rfl, by rw [hx1]; rfl, ?_, ?_, ?_, ?_, fun _ => rfl⟩)
    · rw [hx1]; simp
    · rw [hx1]; simp
    · intro _; exact hx2
    · intro _; simp [holds, hpc, St.go] at this ⊢; omega
  | cn th ht hpc =>
    have := key ht ⟨th.view, .idle⟩
    refine I1_upd h ht rfl rfl hcap (.inl ⟨rfl, ?_, rfl⟩)
    simp [holds, hpc, St.go] at this ⊢; omega
  | d5 th v' hh x ht hv hpc hx1 =>
    have := key ht ⟨v', .d6 0 hh⟩
    refine I1_upd h ht rfl rfl hcap (.inr ⟨x, rfl, by rw [hx1]; rfl, ?_, ?_, ?_, ?_, fun _ => rfl⟩)
    · rw [hx1]; simp
    · rw [hx1]; simp
    · rw [hx1]; simp
    · intro _; simp [holds, hpc, St.go] at this ⊢; omega
  | d7 th hh ht hpc =>
    have := key ht ⟨th.view, .d8 0 hh⟩
    refine I1_upd h ht rfl rfl hcap (.inl ⟨rfl, ?_, rfl⟩)
    simp [holds, hpc, St.go] at this ⊢; omega
  | d8 th v' hh x ht hv hpc hx1 =>
    have := key ht ⟨v', .d0⟩
    refine I1_upd h ht rfl rfl hcap (.inr ⟨x, rfl, by rw [hx1]; rfl, ?_, ?_, ?_, ?_, fun _ => rfl⟩)
    · rw [hx1]; simp
    · rw [hx1]; simp
    · rw [hx1]; simp
    · intro _; simp [holds, hpc, St.go] at this ⊢; omega

/-- The element of place `a` is in memory. -/
def Wr (s : St) (a : Nat) : Prop := last s.mem (.elem 0 a) = 1 ∧ ∃ m, s.at (.elem 0 a) 1 = some m ∧ s.acc[a]? = some m.val

/-- The consumer has taken a place but not yet the element. -/
def inDeq : Pc → Bool
  | .d6 .. | .d7 .. => true
  | _ => false

def hh? : Pc → Option Nat
  | .d2 _ hh | .d5 _ hh | .d6 _ hh | .d7 _ hh => some hh
  | _ => none

def lt? : Pc → Option Nat
  | .d5 _ hh | .d6 _ hh => some hh
  | _ => none

/-- What holds of each thread. -/
structure T2 (s : St) (i : Nat) (th : Thr) : Prop where
  tk : ∀ a, tick th.pc = some a → a < s.acc.length ∧ a + 1 ≤ th.view.get (.btail 0)
  ed : ∀ e tt, th.pc = .ed e 0 tt → s.acc[tt]? = some e ∧ last s.mem (.elem 0 tt) = 0
  ee : ∀ e tt, th.pc = .ee e 0 tt → Wr s tt ∧ 1 ≤ th.view.get (.elem 0 tt)
  bh : i = 0 → last s.mem (.bhead 0) ≤ th.view.get (.bhead 0)
  hv : i = 0 → ∀ m, s.at (.bhead 0) (last s.mem (.bhead 0)) = some m → m.val = s.out.length + (inDeq th.pc).toNat
  hh : i = 0 → ∀ a, hh? th.pc = some a → a = s.out.length
  lt : i = 0 → ∀ a, lt? th.pc = some a → a < s.acc.length
  d7 : i = 0 → ∀ a, th.pc = .d7 0 a → Wr s a ∧ 1 ≤ th.view.get (.elem 0 a)

structure I2 (s : St) : Prop where
  race : s.race = false
  th : ∀ i th, s.ths[i]? = some th → T2 s i th
  uniq : ∀ (i j : Nat) (a b : Thr) c, s.ths[i]? = some a → s.ths[j]? = some b → tick a.pc = some c → tick b.pc = some c → i = j
  free : ∀ a, s.acc.length ≤ a → last s.mem (.elem 0 a) = 0
  av : ∀ a t m, s.at (.avail 0 a) t = some m → m.val = 1 → Wr s a ∧ 1 ≤ m.view.get (.elem 0 a)
  pf : s.out <+: s.acc

/-- Everything that `T2` speaks of is the same. -/
structure Same (s s' : St) : Prop where
  acc : s'.acc = s.acc
  out : s'.out = s.out
  el : ∀ a, last s'.mem (.elem 0 a) = last s.mem (.elem 0 a)
  ea : ∀ a t, s'.at (.elem 0 a) t = s.at (.elem 0 a) t
  bl : last s'.mem (.bhead 0) = last s.mem (.bhead 0)
  ba : ∀ t, s'.at (.bhead 0) t = s.at (.bhead 0) t

theorem Same.rfl' {s s' : St} (h1 : s'.acc = s.acc) (h2 : s'.out = s.out) (h3 : s'.mem = s.mem) : Same s s' := by
  constructor <;> simp [h1, h2, h3, St.at]

theorem Same.cons {s s' : St} {x : Msg Loc} (h1 : s'.acc = s.acc) (h2 : s'.out = s.out) (h3 : s'.mem = x :: s.mem)
    (hx : ∀ a, x.loc ≠ .elem 0 a) (hb : x.loc ≠ .bhead 0) : Same s s' := by
  constructor <;> simp [h1, h2, h3, St.at, look_cons, last, hx, hb]

theorem Same.wr {s s' : St} (h : Same s s') {a : Nat} (hw : Wr s a) : Wr s' a := by
  obtain ⟨h1, m, h2, h3⟩ := hw
  exact ⟨by rw [h.el, h1], m, by rw [h.ea, h2], by rw [h.acc, h3]⟩

theorem T2.same {s s' : St} {i : Nat} {th : Thr} (h : T2 s i th) (hs : Same s s') : T2 s' i th := by
  constructor
  · rw [hs.acc]; exact h.tk
  · intro e tt hp; rw [hs.acc, hs.el]; exact h.ed e tt hp
  · intro e tt hp; exact ⟨hs.wr (h.ee e tt hp).1, (h.ee e tt hp).2⟩
  · rw [hs.bl]; exact h.bh
  · rw [hs.bl, hs.ba, hs.out]; exact h.hv
  · rw [hs.out]; exact h.hh
  · rw [hs.acc]; exact h.lt
  · intro hi a hp; exact ⟨hs.wr (h.d7 hi a hp).1, (h.d7 hi a hp).2⟩

theorem uniq_set {s s' : St} (h : I2 s) {i : Nat} {th th' : Thr} (ht : s.ths[i]? = some th) (hths : s'.ths = s.ths.set i th')
    (hk : ∀ c, tick th'.pc = some c → tick th.pc = some c ∨ c = s.acc.length) :
    ∀ (i j : Nat) (a b : Thr) c, s'.ths[i]? = some a → s'.ths[j]? = some b → tick a.pc = some c → tick b.pc = some c → i = j := by
  intro p q a b c ha hb hac hbc
  rw [hths] at ha hb
  rcases set_get ht ha with ⟨rfl, rfl⟩ | ⟨hp, ha'⟩ <;> rcases set_get ht hb with ⟨rfl, rfl⟩ | ⟨hq, hb'⟩
  · rfl
  · rcases hk c hac with h1 | h1
    · exact h.uniq _ _ _ _ c ht hb' h1 hbc
    · have := ((h.th q b hb').tk c hbc).1; omega
  · rcases hk c hbc with h1 | h1
    · exact h.uniq _ _ _ _ c ha' ht hac h1
    · have := ((h.th p a ha').tk c hac).1; omega
  · exact h.uniq _ _ _ _ c ha' hb' hac hbc

theorem I2_same {s s' : St} (h : I2 s) (hs : Same s s') (hr : s'.race = s.race) {i : Nat} {th th' : Thr} (ht : s.ths[i]? = some th)
    (hths : s'.ths = s.ths.set i th') (hk : ∀ c, tick th'.pc = some c → tick th.pc = some c) (h2 : T2 s i th')
    (hav : ∀ a t m, s'.at (.avail 0 a) t = some m → m.val = 1 → Wr s a ∧ 1 ≤ m.view.get (.elem 0 a)) : I2 s' := by
  refine ⟨by rw [hr]; exact h.race, ?_, uniq_set h ht hths (fun c hc => .inl (hk c hc)), ?_, ?_, by rw [hs.acc, hs.out]; exact h.pf⟩
  · intro j b hb
    rw [hths] at hb
    rcases set_get ht hb with ⟨rfl, rfl⟩ | ⟨_, hb⟩
    · exact h2.same hs
    · exact (h.th j b hb).same hs
  · rw [hs.acc]; intro a ha; rw [hs.el]; exact h.free a ha
  · intro a t m hm hv; exact ⟨hs.wr (hav a t m hm hv).1, (hav a t m hm hv).2⟩

theorem T2.mono {s : St} {i : Nat} {v v' : View Loc} {p : Pc} (h : T2 s i ⟨v, p⟩) (hv : v.le v') : T2 s i ⟨v', p⟩ := by
  constructor
  · intro a ha; exact ⟨(h.tk a ha).1, Nat.le_trans (h.tk a ha).2 (hv _)⟩
  · exact h.ed
  · intro e tt hp; exact ⟨(h.ee e tt hp).1, Nat.le_trans (h.ee e tt hp).2 (hv _)⟩
  · intro hi; exact Nat.le_trans (h.bh hi) (hv _)
  · exact h.hv
  · exact h.hh
  · exact h.lt
  · intro hi a hp; exact ⟨(h.d7 hi a hp).1, Nat.le_trans (h.d7 hi a hp).2 (hv _)⟩

/-- A change of the program counter that needs nothing new. -/
theorem T2.pc {s : St} {i : Nat} {v : View Loc} {p p' : Pc} (h : T2 s i ⟨v, p⟩) (h1 : ∀ a, tick p' = some a → tick p = some a)
    (h2 : ∀ e tt, p' ≠ .ed e 0 tt) (h3 : ∀ e tt, p' ≠ .ee e 0 tt) (h4 : i = 0 → inDeq p' = inDeq p ∧ (∀ a, hh? p' = some a → a = s.out.length) ∧
      (∀ a, lt? p' = some a → a < s.acc.length) ∧ ∀ a, p' ≠ .d7 0 a) : T2 s i ⟨v, p'⟩ := by
  constructor
  · intro a ha; exact h.tk a (h1 a ha)
  · intro e tt hp; exact absurd hp (h2 e tt)
  · intro e tt hp; exact absurd hp (h3 e tt)
  · exact h.bh
  · intro hi; rw [show inDeq (Thr.mk v p').pc = inDeq (Thr.mk v p).pc from (h4 hi).1]; exact h.hv hi
  · intro hi; exact (h4 hi).2.1
  · intro hi; exact (h4 hi).2.2.1
  · intro hi a hp; exact absurd hp ((h4 hi).2.2.2 a)

theorem I2_move {size : Nat} {c : List (Nat × Nat)} {s s' : St} (h1 : I1 size s) (h : I2 s) (hm : Move size s c s') : I2 s' := by
  cases hm with
  | call i th e hi ht hpc =>
    have h2 := h.th i th ht
    obtain ⟨v, p⟩ := th
    exact I2_same h (.rfl' rfl rfl rfl) rfl ht rfl (by simp [tick]) (h2.pc (by simp [tick]) (by simp) (by simp) (by simp [hi])) h.av
  | sync i th v' ht hv =>
    exact I2_same h (.rfl' rfl rfl rfl) rfl ht rfl (fun c hc => hc) ((h.th i th ht).mono hv) h.av
  | quiet i th v' p' ht hv hq =>
    have h2 := h.th i th ht
    obtain ⟨v, p⟩ := th
    have h3 := h2.mono hv
    dsimp only at hq hv
    refine I2_same h (.rfl' rfl rfl rfl) rfl ht rfl ?_ ?_ h.av
    · cases hq <;> simp [tick]
    · cases hq
      case d1 t m hi hm hvt =>
        have hb := h2.bh hi
        have hl := look_le hm
        have ht : t = last s.mem (.bhead 0) := by dsimp only at hb; omega
        subst ht
        have := h2.hv hi m hm
        exact h3.pc (by simp [tick]) (by simp) (by simp) (fun _ => ⟨rfl, by simpa [hh?, inDeq] using this, by simp [lt?], by simp⟩)
      case d2 t hh hi hle hlt =>
        have := h2.hh hi hh rfl
        exact h3.pc (by simp [tick]) (by simp) (by simp) (fun _ => ⟨rfl, by simpa [hh?] using this, by simp [lt?]; omega, by simp⟩)
      case d6 t hh m hi hm hval hle =>
        have hw := h.av hh t m hm hval
        exact ⟨by simp [tick], by simp, by simp, h3.bh, h3.hv, h3.hh, by simp [lt?], by simp; intro _; exact ⟨hw.1, Nat.le_trans hw.2 (hle _)⟩⟩
      all_goals exact h3.pc (by simp [tick]) (by simp) (by simp) (by simp [*, inDeq, hh?, lt?])
  | inc i th v' e c x m hi ht hv hpc hm hx1 hx2 hx3 =>
    have h2 := h.th i th ht
    obtain ⟨v, p⟩ := th
    refine I2_same h (.cons rfl rfl rfl (by simp [hx1]) (by simp [hx1])) rfl ht rfl (by simp [tick])
      ((h2.mono hv).pc (by simp [tick]) (by simp) (by simp) (by simp [hi])) ?_
    intro a t m hm
    exact h.av a t m (by simpa [St.at, St.go, look_cons, hx1] using hm)
  | dec i th v' k x m hi ht hv hpc hk hm hx1 hx2 hx3 =>
    have h2 := h.th i th ht
    obtain ⟨v, p⟩ := th
    dsimp only at hpc
    subst hpc
    refine I2_same h (.cons rfl rfl rfl (by simp [hx1]) (by simp [hx1])) rfl ht rfl ?_ ((h2.mono hv).pc ?_ ?_ ?_ (by simp [hi])) ?_
    · rcases hk with ⟨e, rfl⟩ | ⟨a, rfl⟩ <;> simp [tick, K.next]
    · rcases hk with ⟨e, rfl⟩ | ⟨a, rfl⟩ <;> simp [tick, K.next]
    · rcases hk with ⟨e, rfl⟩ | ⟨a, rfl⟩ <;> simp [K.next]
    · rcases hk with ⟨e, rfl⟩ | ⟨a, rfl⟩ <;> simp [K.next]
    intro a t m hm
    exact h.av a t m (by simpa [St.at, St.go, look_cons, hx1] using hm)
  | place i th v' e x hi ht hv hpc hx1 hx2 hx3 hx4 =>
    have h2 := h.th i th ht
    have hwr : ∀ a, Wr s a → Wr ({ s with mem := x :: s.mem, acc := s.acc ++ [e] }.go i v' (.ed e 0 s.acc.length)) a := by
      intro a ⟨g1, m, g2, g3⟩
      refine ⟨by simp [St.go, last, hx1, g1], m, by simpa [St.at, St.go, look_cons, hx1] using g2, ?_⟩
      have : a < s.acc.length := by
        rw [List.getElem?_eq_some_iff] at g3; exact g3.1
      simp only [St.go]
      rw [List.getElem?_append_left this]; exact g3
    have hel : ∀ a, last (x :: s.mem) (.elem 0 a) = last s.mem (.elem 0 a) := by intro a; simp [last, hx1]
    have hbl : last (x :: s.mem) (.bhead 0) = last s.mem (.bhead 0) := by simp [last, hx1]
    have hba : ∀ t, look ini (x :: s.mem) (.bhead 0) t = look ini s.mem (.bhead 0) t := by intro a; simp [look_cons, hx1]
    refine ⟨h.race, ?_, uniq_set h ht rfl (by simp [tick]), ?_, ?_, h.pf.trans (List.prefix_append _ _)⟩
    · intro j b hb
      simp only [St.go] at hb
      rcases set_get ht hb with ⟨rfl, rfl⟩ | ⟨_, hb⟩
      · refine ⟨?_, ?_, by simp, by simp [hi], by simp [hi], by simp [hi], by simp [hi], by simp [hi]⟩
        · simp only [tick, Option.some.injEq]; rintro a rfl; exact ⟨by simp [St.go], hx4⟩
        · simp only [Pc.ed.injEq]; rintro e tt ⟨rfl, _, rfl⟩
          refine ⟨by simp [St.go], ?_⟩
          simp only [St.go]; rw [hel]; exact h.free _ (Nat.le_refl _)
      · have h3 := h.th j b hb
        constructor
        · intro a ha; have := h3.tk a ha; exact ⟨by simp [St.go]; omega, this.2⟩
        · intro e' tt hp
          have := h3.ed e' tt hp
          simp only [St.go]
          rw [hel, List.getElem?_append_left (by have := this.1; rw [List.getElem?_eq_some_iff] at this; exact this.1)]
          exact this
        · intro e' tt hp; exact ⟨hwr _ (h3.ee e' tt hp).1, (h3.ee e' tt hp).2⟩
        · simp only [St.go]; rw [hbl]; exact h3.bh
        · simp only [St.go, St.at]; rw [hbl, hba]; exact h3.hv
        · exact h3.hh
        · intro h0 a ha; have := h3.lt h0 a ha; simp [St.go]; omega
        · intro h0 a ha; have := h3.d7 h0 a ha; exact ⟨hwr _ this.1, this.2⟩
    · intro a ha; simp only [St.go] at ha ⊢; rw [hel]; exact h.free a (by simp at ha; omega)
    · intro a t m hm hv
      have := h.av a t m (by simpa [St.at, St.go, look_cons, hx1] using hm) hv
      exact ⟨hwr _ this.1, this.2⟩
  | put i th v' e tt x hi ht hv hpc hx1 hx2 hx3 hx4 =>
    have h2 := h.th i th ht
    have hed := h2.ed e tt hpc
    rw [hed.2] at hx2 hx4
    have hel : ∀ a, a ≠ tt → last (x :: s.mem) (.elem 0 a) = last s.mem (.elem 0 a) := by
      intro a ha; simp only [last, hx1, Loc.elem.injEq, true_and]; rw [if_neg (Ne.symm ha)]
    have hne : ∀ a, Wr s a → a ≠ tt := by rintro a ⟨g1, -⟩ rfl; rw [hed.2] at g1; cases g1
    have hwr : ∀ a, Wr s a → Wr ({ s with mem := x :: s.mem, race := s.race || decide (th.view.get (.elem 0 tt) < last s.mem (.elem 0 tt)) }.go i v' (.ee e 0 tt)) a := by
      intro a hw
      have := hne a hw
      obtain ⟨g1, m, g2, g3⟩ := hw
      refine ⟨by simp only [St.go]; rw [hel a this]; exact g1, m, ?_, g3⟩
      simp only [St.go, St.at, look_cons, hx1, Loc.elem.injEq, true_and]
      rw [if_neg (fun hc => this hc.1.symm)]; exact g2
    have hbl : last (x :: s.mem) (.bhead 0) = last s.mem (.bhead 0) := by simp [last, hx1]
    have hba : ∀ t, look ini (x :: s.mem) (.bhead 0) t = look ini s.mem (.bhead 0) t := by intro a; simp [look_cons, hx1]
    refine ⟨by simp [St.go, h.race, hed.2], ?_, uniq_set h ht rfl (by simp [tick, hpc]), ?_, ?_, h.pf⟩
    · intro j b hb
      simp only [St.go] at hb
      rcases set_get ht hb with ⟨rfl, rfl⟩ | ⟨hj, hb'⟩
      · refine ⟨?_, by simp, ?_, by simp [hi], by simp [hi], by simp [hi], by simp [hi], by simp [hi]⟩
        · simp only [tick, Option.some.injEq]; rintro a rfl
          have := h2.tk tt (by rw [hpc]; rfl)
          exact ⟨this.1, Nat.le_trans this.2 (hv _)⟩
        · simp only [Pc.ee.injEq]; rintro e tt ⟨rfl, _, rfl⟩
          refine ⟨⟨?_, x, ?_, ?_⟩, hx4⟩
          · simp [St.go, last, hx1, hx2, hed.2]
          · simp [St.go, St.at, look_cons, hx1, hx2]
          · rw [hx3]; exact hed.1
      · have h3 := h.th j b hb'
        constructor
        · exact h3.tk
        · intro e' tt' hp
          have := h3.ed e' tt' hp
          refine ⟨this.1, ?_⟩
          have hne : tt' ≠ tt := by
            rintro rfl
            exact hj (h.uniq j i b th tt' hb' ht (by rw [hp]; rfl) (by rw [hpc]; rfl))
          simp only [St.go]; rw [hel _ hne]; exact this.2
        · intro e' tt hp; exact ⟨hwr _ (h3.ee e' tt hp).1, (h3.ee e' tt hp).2⟩
        · simp only [St.go]; rw [hbl]; exact h3.bh
        · simp only [St.go, St.at]; rw [hbl, hba]; exact h3.hv
        · exact h3.hh
        · exact h3.lt
        · intro h0 a ha; have := h3.d7 h0 a ha; exact ⟨hwr _ this.1, this.2⟩
    · intro a ha
      have : a ≠ tt := by
        rintro rfl
        have := (h2.tk a (by rw [hpc]; rfl)).1
        simp only [St.go] at ha; omega
      simp only [St.go] at ha ⊢; rw [hel a this]; exact h.free a ha
    · intro a t m hm hv
      have := h.av a t m (by simpa [St.at, St.go, look_cons, hx1] using hm) hv
      exact ⟨hwr _ this.1, this.2⟩
  | pub i th v' e tt x hi ht hv hpc hx1 hx2 hx3 hx4 =>
    have h2 := h.th i th ht
    obtain ⟨v, p⟩ := th
    dsimp only at hpc
    subst hpc
    refine I2_same h (.cons rfl rfl rfl (by simp [hx1]) (by simp [hx1])) rfl ht rfl (by simp [tick])
      ((h2.mono hv).pc (by simp [tick]) (by simp) (by simp) (by simp [hi])) ?_
    intro a t m hm hval
    simp only [St.at, St.go, look_cons, hx1] at hm
    split at hm
    · rename_i hc
      simp only [Loc.avail.injEq, true_and] at hc
      obtain ⟨rfl, _⟩ := hc
      cases hm
      have := (h2.mono hv).ee e tt rfl
      exact ⟨this.1, Nat.le_trans this.2 (hx4 _)⟩
    · exact h.av a t m hm hval
  | ex i th v' a x m p' hi ht hv hpc hm hx1 hx2 hx3 hx4 hx5 hp =>
    have h2 := h.th i th ht
    obtain ⟨v, p⟩ := th
    have hp' : p' = .nt ∨ p' = .idle := by rw [hp]; split <;> simp
    refine I2_same h (.cons rfl rfl rfl (by simp [hx1]) (by simp [hx1])) rfl ht rfl (by rcases hp' with rfl | rfl <;> simp [tick])
      ((h2.mono hv).pc ?_ ?_ ?_ (by simp [hi])) ?_
    · rcases hp' with rfl | rfl <;> simp [tick]
    · rcases hp' with rfl | rfl <;> simp
    · rcases hp' with rfl | rfl <;> simp
    intro a t m hm
    exact h.av a t m (by simpa [St.at, St.go, look_cons, hx1] using hm)
  | nt i th hi ht hpc =>
    have h2 := h.th i th ht
    obtain ⟨v, p⟩ := th
    exact I2_same h (.rfl' rfl rfl rfl) rfl ht rfl (by simp [tick]) (h2.pc (by simp [tick]) (by simp) (by simp) (by simp [hi])) h.av
  | c0 th ht hpc =>
    have h2 := h.th 0 th ht
    obtain ⟨v, p⟩ := th
    dsimp only at hpc
    subst hpc
    exact I2_same h (.rfl' rfl rfl rfl) rfl ht rfl (by simp [tick]) (h2.pc (by simp [tick]) (by simp) (by simp) (by simp [inDeq, hh?, lt?])) h.av
  | c1 th v' x m ht hv hpc hm hx1 hx2 =>
    have h2 := h.th 0 th ht
    obtain ⟨v, p⟩ := th
    dsimp only at hpc
    subst hpc
    refine I2_same h (.cons rfl rfl rfl (by simp [hx1]) (by simp [hx1])) rfl ht rfl (by simp [tick])
      ((h2.mono hv).pc (by simp [tick]) (by simp) (by simp) (by simp [inDeq, hh?, lt?])) ?_
    intro a t m hm
    exact h.av a t m (by simpa [St.at, St.go, look_cons, hx1] using hm)
  | cn th ht hpc =>
    have h2 := h.th 0 th ht
    obtain ⟨v, p⟩ := th
    dsimp only at hpc
    subst hpc
    exact I2_same h (.rfl' rfl rfl rfl) rfl ht rfl (by simp [tick]) (h2.pc (by simp [tick]) (by simp) (by simp) (by simp [inDeq, hh?, lt?])) h.av
  | d5 th v' hh x ht hv hpc hx1 hx2 hx3 hx4 =>
    have h2 := h.th 0 th ht
    have hb := h2.bh rfl
    have hl : last (x :: s.mem) (.bhead 0) = x.ts := by simp [last, hx1]; omega
    have hel : ∀ a, last (x :: s.mem) (.elem 0 a) = last s.mem (.elem 0 a) := by intro a; simp [last, hx1]
    have hea : ∀ a t, look ini (x :: s.mem) (.elem 0 a) t = look ini s.mem (.elem 0 a) t := by intro a t; simp [look_cons, hx1]
    have hwr : ∀ a, Wr s a → Wr ({ s with mem := x :: s.mem }.go 0 v' (.d6 0 hh)) a := by
      intro a ⟨g1, m, g2, g3⟩
      exact ⟨by simp only [St.go]; rw [hel]; exact g1, m, by simp only [St.at, St.go]; rw [hea]; exact g2, g3⟩
    refine ⟨h.race, ?_, uniq_set h ht rfl (by simp [tick]), ?_, ?_, h.pf⟩
    · intro j b hb'
      simp only [St.go] at hb'
      rcases set_get ht hb' with ⟨rfl, rfl⟩ | ⟨hj, hb'⟩
      · refine ⟨by simp [tick], by simp, by simp, ?_, ?_, ?_, ?_, by simp⟩
        · simp only [St.go]; rw [hl]; intro _; exact hx3
        · simp only [St.go, St.at]; rw [hl]; intro _ m hm
          simp only [look_cons, hx1, true_and, if_true, Option.some.injEq] at hm
          subst hm
          have := h2.hh rfl hh (by rw [hpc]; rfl)
          simp [inDeq]; omega
        · simp only [hh?]; intro _ a ha; cases ha; exact h2.hh rfl hh (by rw [hpc]; rfl)
        · simp only [lt?]; intro _ a ha; cases ha; exact h2.lt rfl hh (by rw [hpc]; rfl)
      · have h3 := h.th j b hb'
        refine ⟨h3.tk, ?_, ?_, by simp [hj], by simp [hj], by simp [hj], by simp [hj], by simp [hj]⟩
        · intro e tt hp; simp only [St.go]; rw [hel]; exact h3.ed e tt hp
        · intro e tt hp; exact ⟨hwr _ (h3.ee e tt hp).1, (h3.ee e tt hp).2⟩
    · intro a ha; simp only [St.go]; rw [hel]; exact h.free a ha
    · intro a t m hm hv
      have := h.av a t m (by simpa [St.at, St.go, look_cons, hx1] using hm) hv
      exact ⟨hwr _ this.1, this.2⟩
  | d7 th hh ht hpc =>
    have h2 := h.th 0 th ht
    obtain ⟨⟨g1, m, g2, g3⟩, g4⟩ := h2.d7 rfl hh hpc
    have hho := h2.hh rfl hh (by rw [hpc]; rfl)
    have hpl : plainLoad ini s.mem th.view (.elem 0 hh) = (m.val, false) := by
      have g2' : look ini s.mem (.elem 0 hh) 1 = some m := g2
      simp [plainLoad, g1, g2']; omega
    rw [hpl]
    refine ⟨by simp [St.go, h.race], ?_, uniq_set h ht rfl (by simp [tick]), h.free, h.av, ?_⟩
    · intro j b hb'
      simp only [St.go] at hb'
      rcases set_get ht hb' with ⟨rfl, rfl⟩ | ⟨hj, hb'⟩
      · refine ⟨by simp [tick], by simp, by simp, h2.bh, ?_, by simp [hh?], by simp [lt?], by simp⟩
        intro _ m' hm'
        have := h2.hv rfl m' hm'
        rw [hpc] at this
        simpa [St.go, inDeq] using this
      · have h3 := h.th j b hb'
        exact ⟨h3.tk, h3.ed, h3.ee, by simp [hj], by simp [hj], by simp [hj], by simp [hj], by simp [hj]⟩
    · simp only [St.go]
      obtain ⟨r, hr⟩ := h.pf
      rw [← hr, hho, List.getElem?_append_right (Nat.le_refl _)] at g3
      simp only [Nat.sub_self] at g3
      cases r with
      | nil => simp at g3
      | cons y r =>
        simp at g3
        rw [← hr, ← g3]
        exact ⟨r, by simp⟩
  | d8 th v' hh x ht hv hpc hx1 hx2 =>
    have h2 := h.th 0 th ht
    obtain ⟨v, p⟩ := th
    dsimp only at hpc
    subst hpc
    refine I2_same h (.cons rfl rfl rfl (by simp [hx1]) (by simp [hx1])) rfl ht rfl (by simp [tick])
      ((h2.mono hv).pc (by simp [tick]) (by simp) (by simp) (by simp [inDeq, hh?, lt?])) ?_
    intro a t m hm hval
    simp only [St.at, St.go, look_cons, hx1] at hm
    split at hm
    · cases hm; rw [hx2] at hval; cases hval
    · exact h.av a t m hm hval

/-- Some thread still has to do the exchange for place `a`. -/
def Pend (s : St) (a : Nat) : Prop := ∃ (i : Nat) (th : Thr), s.ths[i]? = some th ∧ tick th.pc = some a

/-- The consumer is in `func`, before it has seen that the queue is empty. -/
def inFunc : Pc → Bool
  | .d0 | .d1 .. | .d2 .. | .d5 .. | .d6 .. | .d7 .. | .d8 .. => true
  | _ => false

/-- What the consumer has seen once it has said that it waits. -/
structure Seen (s : St) (th : Thr) : Prop where
  func : inFunc th.pc = true → ∀ a, a < s.acc.length → ¬ Pend s a → a + 1 ≤ th.view.get (.btail 0)
  d3 : th.pc = .d3 0 → ∀ a, a < s.acc.length → ¬ Pend s a → a < s.out.length
  idle : th.pc = .idle → 0 < s.fd ∨ ∀ a, a < s.acc.length → ¬ Pend s a → a < s.out.length

structure I3 (s : St) : Prop where
  cov : ∀ m, s.at .sig (last s.mem .sig) = some m → ∀ a, a < s.acc.length → ¬ Pend s a → a + 1 ≤ m.view.get (.btail 0)
  wake : ∀ m, s.at .sig (last s.mem .sig) = some m → m.val ≠ 1 →
    (∃ (i : Nat) (th : Thr), s.ths[i]? = some th ∧ th.pc = .nt) ∨ 0 < s.fd ∨ (∃ th, s.ths[0]? = some th ∧ th.pc = .c1)
  seen : ∀ m th, s.at .sig (last s.mem .sig) = some m → m.val = 1 → s.ths[0]? = some th → Seen s th

theorem set_self {l : List Thr} {i : Nat} {th : Thr} (h : l[i]? = some th) (a : Thr) : (l.set i a)[i]? = some a := by
  obtain ⟨hi, rfl⟩ := List.getElem?_eq_some_iff.mp h
  simp [hi]

theorem set_ne {l : List Thr} {i j : Nat} (h : j ≠ i) (a : Thr) : (l.set i a)[j]? = l[j]? := by
  rw [List.getElem?_set, if_neg (fun he => h he.symm)]

theorem pend_mono {s s' : St} {i : Nat} {th th' : Thr} (ht : s.ths[i]? = some th) (hths : s'.ths = s.ths.set i th') {a : Nat}
    (hk : tick th.pc = some a → tick th'.pc = some a) (h : Pend s a) : Pend s' a := by
  obtain ⟨j, b, hb, hba⟩ := h
  by_cases hj : j = i
  · subst hj
    rw [ht] at hb
    cases hb
    exact ⟨j, th', by rw [hths]; exact set_self ht _, hk hba⟩
  · exact ⟨j, b, by rw [hths, set_ne hj]; exact hb, hba⟩

theorem I3_upd {s s' : St} (h : I3 s) {i : Nat} {th th' : Thr} (ht : s.ths[i]? = some th) (hths : s'.ths = s.ths.set i th')
    (hsig : ∀ t, s'.at .sig t = s.at .sig t) (hlast : last s'.mem .sig = last s.mem .sig) (hacc : s'.acc = s.acc)
    (hk : ∀ a, tick th.pc = some a → tick th'.pc = some a)
    (hnt : th.pc = .nt → 0 < s'.fd) (hfd : 0 < s.fd → 0 < s'.fd ∨ (i = 0 ∧ th'.pc = .c1)) (hc1 : i = 0 → th.pc = .c1 → th'.pc = .c1)
    (h0 : i = 0 → (∀ m, s.at .sig (last s.mem .sig) = some m → m.val = 1 → Seen s th) → (∀ a, Pend s a → Pend s' a) →
      ∀ m, s.at .sig (last s.mem .sig) = some m → m.val = 1 → Seen s' th')
    (h1 : i ≠ 0 → s'.out = s.out ∧ s.fd ≤ s'.fd) : I3 s' := by
  have hp : ∀ a, Pend s a → Pend s' a := fun a => pend_mono ht hths (hk a)
  constructor
  · intro m hm a ha hn
    rw [hlast, hsig] at hm
    rw [hacc] at ha
    exact h.cov m hm a ha (fun hc => hn (hp a hc))
  · intro m hm hv
    rw [hlast, hsig] at hm
    rcases h.wake m hm hv with ⟨j, b, hb, hbp⟩ | hf | ⟨b, hb, hbp⟩
    · by_cases hj : j = i
      · subst hj
        rw [ht] at hb
        cases hb
        exact .inr (.inl (hnt hbp))
      · exact .inl ⟨j, b, by rw [hths, set_ne hj]; exact hb, hbp⟩
    · rcases hfd hf with hf | ⟨rfl, hc⟩
      · exact .inr (.inl hf)
      · exact .inr (.inr ⟨th', by rw [hths]; exact set_self ht _, hc⟩)
    · by_cases hj : 0 = i
      · subst hj
        rw [ht] at hb
        cases hb
        exact .inr (.inr ⟨th', by rw [hths]; exact set_self ht _, hc1 rfl hbp⟩)
      · exact .inr (.inr ⟨b, by rw [hths, set_ne hj]; exact hb, hbp⟩)
  · intro m b hm hv hb
    rw [hlast, hsig] at hm
    rw [hths] at hb
    rcases set_get ht hb with ⟨hi, rfl⟩ | ⟨hj, hb'⟩
    · subst hi
      exact h0 rfl (fun m hm hv => h.seen m th hm hv ht) hp m hm hv
    · have hs := h.seen m b hm hv hb'
      obtain ⟨ho, hf⟩ := h1 (fun hi => hj hi.symm)
      constructor
      · rw [hacc]; intro hpc a ha hn; exact hs.func hpc a ha (fun hc => hn (hp a hc))
      · rw [hacc, ho]; intro hpc a ha hn; exact hs.d3 hpc a ha (fun hc => hn (hp a hc))
      · rw [hacc, ho]; intro hpc
        rcases hs.idle hpc with h4 | h4
        · exact .inl (by omega)
        · exact .inr fun a ha hn => h4 a ha (fun hc => hn (hp a hc))

/-- A step of the consumer within `func`. -/
theorem Seen.func' {s s' : St} {v v' : View Loc} {p p' : Pc} (h : Seen s ⟨v, p⟩) (hv : v.le v') (hp : inFunc p = true) (hacc : s'.acc = s.acc) (hpend : ∀ a, Pend s a → Pend s' a)
    (hp' : inFunc p' = true) : Seen s' ⟨v', p'⟩ := by
  constructor
  · rw [hacc]; intro _ a ha hn; exact Nat.le_trans (h.func hp a ha (fun hc => hn (hpend a hc))) (hv _)
  · intro hc; dsimp only at hc; rw [hc] at hp'; cases hp'
  · intro hc; dsimp only at hc; rw [hc] at hp'; cases hp'

theorem Seen.other {s : St} {v : View Loc} {p : Pc} (h1 : inFunc p = false) (h2 : p ≠ .d3 0) (h3 : p = .idle → 0 < s.fd) : Seen s ⟨v, p⟩ :=
  ⟨by simp [h1], fun h => absurd h h2, fun h => .inl (h3 h)⟩

theorem I3_move {size : Nat} {c : List (Nat × Nat)} {s s' : St} (h1 : I1 size s) (h2 : I2 s) (h : I3 s) (hm : Move size s c s') : I3 s' := by
  cases hm with
  | call i th e hi ht hpc =>
    exact I3_upd h ht rfl (fun _ => rfl) rfl rfl (by simp [hpc, tick]) (by simp [hpc]) (fun h => .inl h) (by simp [hi]) (by simp [hi]) (fun _ => ⟨rfl, Nat.le_refl _⟩)
  | sync i th v' ht hv =>
    by_cases hi : i = 0
    · subst hi
      obtain ⟨v, p⟩ := th
      refine I3_upd h ht rfl (fun _ => rfl) rfl rfl (by simp) ?_ (fun h => .inl h) (by simp) ?_ (by simp)
      · intro hpc
        have := h1.leg 0 _ ht
        dsimp only at hpc
        subst hpc
        cases this
      · intro _ hs hp m hm hval
        have hs := hs m hm hval
        constructor
        · intro hpc a ha hn; exact Nat.le_trans (hs.func hpc a ha (fun hc => hn (hp a hc))) (hv _)
        · intro hpc a ha hn; exact hs.d3 hpc a ha (fun hc => hn (hp a hc))
        · intro hpc
          rcases hs.idle hpc with h4 | h4
          · exact .inl h4
          · exact .inr fun a ha hn => h4 a ha (fun hc => hn (hp a hc))
    · by_cases hnt : th.pc = .nt
      · constructor
        · intro m hm a ha hn
          exact h.cov m hm a ha (fun hc => hn (pend_mono (th' := ⟨v', th.pc⟩) ht rfl (fun hk => hk) hc))
        · intro m hm hval; exact .inl ⟨i, _, set_self ht _, hnt⟩
        · intro m b hm hval hb
          rcases set_get ht hb with ⟨h0, _⟩ | ⟨_, hb'⟩
          · exact absurd h0.symm hi
          · have hs := h.seen m b hm hval hb'
            have hp : ∀ a, Pend s a → Pend (s.go i v' th.pc) a := fun a hc => pend_mono (th' := ⟨v', th.pc⟩) ht rfl (fun hk => hk) hc
            constructor
            · intro hpc a ha hn; exact hs.func hpc a ha (fun hc => hn (hp a hc))
            · intro hpc a ha hn; exact hs.d3 hpc a ha (fun hc => hn (hp a hc))
            · intro hpc
              rcases hs.idle hpc with h4 | h4
              · exact .inl h4
              · exact .inr fun a ha hn => h4 a ha (fun hc => hn (hp a hc))
      · exact I3_upd h ht rfl (fun _ => rfl) rfl rfl (by simp) (by simp [hnt]) (fun h => .inl h) (by simp [hi]) (by simp [hi]) (fun _ => ⟨rfl, Nat.le_refl _⟩)
  | quiet i th v' p' ht hv hq =>
    have ht2 := h2.th i th ht
    obtain ⟨v, p⟩ := th
    dsimp only at hq hv
    cases hq
    case fire hi hf =>
      subst hi
      exact I3_upd h ht rfl (fun _ => rfl) rfl rfl (by simp [tick]) (by simp) (fun h => .inl h) (by simp) (fun _ _ _ _ _ _ => .other rfl (by simp) (by simp)) (by simp)
    case more hi =>
      subst hi
      exact I3_upd h ht rfl (fun _ => rfl) rfl rfl (by simp [tick]) (by simp) (fun h => .inl h) (by simp) (fun _ _ _ _ _ _ => .other rfl (by simp) (by simp)) (by simp)
    case d2i t hh hi hle hlt =>
      subst hi
      refine I3_upd h ht rfl (fun _ => rfl) rfl rfl (by simp [tick]) (by simp) (fun h => .inl h) (by simp) (fun _ hs hp m hm hval => ⟨by simp [inFunc], by simp, fun _ => .inr ?_⟩) (by simp)
      intro a ha hn
      have h5 := (hs m hm hval).func rfl a ha (fun hc => hn (hp a hc))
      have h6 := ht2.hh rfl hh rfl
      dsimp only [St.go] at h5 ⊢
      omega
    case d2d t hh hi hle hlt =>
      subst hi
      refine I3_upd h ht rfl (fun _ => rfl) rfl rfl (by simp [tick]) (by simp) (fun h => .inl h) (by simp) (fun _ hs hp m hm hval => ⟨by simp [inFunc], fun _ => ?_, by simp⟩) (by simp)
      intro a ha hn
      have h5 := (hs m hm hval).func rfl a ha (fun hc => hn (hp a hc))
      have h6 := ht2.hh rfl hh rfl
      dsimp only [St.go] at h5 ⊢
      omega
    case d3 hi =>
      subst hi
      refine I3_upd h ht rfl (fun _ => rfl) rfl rfl (by simp [tick]) (by simp) (fun h => .inl h) (by simp) (fun _ hs hp m hm hval => ⟨by simp [inFunc], by simp, fun _ => .inr ?_⟩) (by simp)
      intro a ha hn
      exact (hs m hm hval).d3 rfl a ha (fun hc => hn (hp a hc))
    case d0 hi =>
      subst hi
      exact I3_upd h ht rfl (fun _ => rfl) rfl rfl (by simp [tick]) (by simp) (fun h => .inl h) (by simp) (fun _ hs hp m hm hval => (hs m hm hval).func' hv rfl rfl hp rfl) (by simp)
    case d1 t m hi _ _ =>
      subst hi
      exact I3_upd h ht rfl (fun _ => rfl) rfl rfl (by simp [tick]) (by simp) (fun h => .inl h) (by simp) (fun _ hs hp m hm hval => (hs m hm hval).func' hv rfl rfl hp rfl) (by simp)
    case d2 t hh hi _ _ =>
      subst hi
      exact I3_upd h ht rfl (fun _ => rfl) rfl rfl (by simp [tick]) (by simp) (fun h => .inl h) (by simp) (fun _ hs hp m hm hval => (hs m hm hval).func' hv rfl rfl hp rfl) (by simp)
    case d6 t hh m hi _ _ _ =>
      subst hi
      exact I3_upd h ht rfl (fun _ => rfl) rfl rfl (by simp [tick]) (by simp) (fun h => .inl h) (by simp) (fun _ hs hp m hm hval => (hs m hm hval).func' hv rfl rfl hp rfl) (by simp)
    all_goals
      rename_i hi _
      exact I3_upd h ht rfl (fun _ => rfl) rfl rfl (by simp [tick]) (by simp) (fun h => .inl h) (by simp_all) (by simp_all) (fun _ => ⟨rfl, Nat.le_refl _⟩)
  | inc i th v' e c x m hi ht hv hpc hm hx1 hx2 hx3 =>
    exact I3_upd h ht rfl (by simp [St.at, St.go, look_cons, hx1]) (by simp [St.go, last, hx1]) rfl (by simp [hpc, tick]) (by simp [hpc]) (fun h => .inl h) (by simp [hi]) (by simp [hi]) (fun _ => ⟨rfl, Nat.le_refl _⟩)
  | dec i th v' k x m hi ht hv hpc hk hm hx1 hx2 hx3 =>
    refine I3_upd h ht rfl (by simp [St.at, St.go, look_cons, hx1]) (by simp [St.go, last, hx1]) rfl ?_ (by simp [hpc]) (fun h => .inl h) (by simp [hi]) (by simp [hi]) (fun _ => ⟨rfl, Nat.le_refl _⟩)
    rcases hk with ⟨e, rfl⟩ | ⟨a, rfl⟩ <;> simp [hpc, tick, K.next]
  | place i th v' e x hi ht hv hpc hx1 hx2 hx3 hx4 =>
    have hp : ∀ a, a < s.acc.length + 1 → ¬ Pend ({ s with mem := x :: s.mem, acc := s.acc ++ [e] }.go i v' (.ed e 0 s.acc.length)) a → a < s.acc.length ∧ ¬ Pend s a := by
      intro a ha hn
      refine ⟨?_, fun hc => hn (pend_mono ht rfl (by simp [hpc, tick]) hc)⟩
      apply Classical.byContradiction
      intro hc
      have : a = s.acc.length := by omega
      subst this
      exact hn ⟨i, _, set_self ht _, rfl⟩
    have hl : last (x :: s.mem) .sig = last s.mem .sig := by simp [last, hx1]
    have ha : ∀ t, look ini (x :: s.mem) .sig t = look ini s.mem .sig t := by simp [look_cons, hx1]
    constructor
    · simp only [St.at, St.go]
      rw [hl, ha]
      intro m hm a hlt hn
      obtain ⟨h5, h6⟩ := hp a (by simpa using hlt) hn
      exact h.cov m hm a h5 h6
    · simp only [St.at, St.go]
      rw [hl, ha]
      intro m hm hval
      rcases h.wake m hm hval with ⟨j, b, hb, hbp⟩ | hf | ⟨b, hb, hbp⟩
      · refine .inl ⟨j, b, ?_, hbp⟩
        have : j ≠ i := by rintro rfl; rw [ht] at hb; cases hb; rw [hpc] at hbp; cases hbp
        rw [set_ne this]; exact hb
      · exact .inr (.inl hf)
      · exact .inr (.inr ⟨b, by rw [set_ne (Ne.symm hi)]; exact hb, hbp⟩)
    · simp only [St.at, St.go]
      rw [hl, ha]
      intro m b hm hval hb
      rw [set_ne (Ne.symm hi)] at hb
      have hs := h.seen m b hm hval hb
      constructor
      · intro hpc a hlt hn
        obtain ⟨h5, h6⟩ := hp a (by simpa using hlt) hn
        exact hs.func hpc a h5 h6
      · intro hpc a hlt hn
        obtain ⟨h5, h6⟩ := hp a (by simpa using hlt) hn
        exact hs.d3 hpc a h5 h6
      · intro hpc
        rcases hs.idle hpc with h4 | h4
        · exact .inl h4
        · refine .inr fun a hlt hn => ?_
          obtain ⟨h5, h6⟩ := hp a (by simpa using hlt) hn
          exact h4 a h5 h6
  | put i th v' e tt x hi ht hv hpc hx1 hx2 hx3 hx4 =>
    exact I3_upd h ht rfl (by simp [St.at, St.go, look_cons, hx1]) (by simp [St.go, last, hx1]) rfl (by simp [hpc, tick]) (by simp [hpc]) (fun h => .inl h) (by simp [hi]) (by simp [hi]) (fun _ => ⟨rfl, Nat.le_refl _⟩)
  | pub i th v' e tt x hi ht hv hpc hx1 hx2 hx3 hx4 =>
    exact I3_upd h ht rfl (by simp [St.at, St.go, look_cons, hx1]) (by simp [St.go, last, hx1]) rfl (by simp [hpc, tick]) (by simp [hpc]) (fun h => .inl h) (by simp [hi]) (by simp [hi]) (fun _ => ⟨rfl, Nat.le_refl _⟩)
  | ex i th v' a x m p' hi ht hv hpc hm hx1 hx2 hx3 hx4 hx5 hp =>
    have hl : last (x :: s.mem) .sig = x.ts := by simp [last, hx1]; omega
    have ha : look ini (x :: s.mem) .sig x.ts = some x := by simp [look_cons, hx1]
    constructor
    · simp only [St.at, St.go]
      rw [hl, ha]
      intro m' hm' b hlt hn
      cases hm'
      by_cases hb : b = a
      · subst hb
        have := (h2.th i th ht).tk b (by rw [hpc]; rfl)
        exact Nat.le_trans this.2 (Nat.le_trans (hv _) (hx4 _))
      · refine Nat.le_trans (h.cov m hm b hlt (fun hc => hn (pend_mono ht rfl ?_ hc))) (hx5 _)
        rw [hpc]; simp only [tick, Option.some.injEq]; intro hc; exact absurd hc.symm hb
    · simp only [St.at, St.go]
      rw [hl, ha]
      intro m' hm' hval
      cases hm'
      by_cases hmv : m.val = 1
      · rw [if_pos hmv] at hp
        exact .inl ⟨i, _, set_self ht _, hp⟩
      · rcases h.wake m hm hmv with ⟨j, b, hb, hbp⟩ | hf | ⟨b, hb, hbp⟩
        · refine .inl ⟨j, b, ?_, hbp⟩
          have : j ≠ i := by rintro rfl; rw [ht] at hb; cases hb; rw [hpc] at hbp; cases hbp
          rw [set_ne this]; exact hb
        · exact .inr (.inl hf)
        · exact .inr (.inr ⟨b, by rw [set_ne (Ne.symm hi)]; exact hb, hbp⟩)
    · simp only [St.at, St.go]
      rw [hl, ha]
      intro m' b hm' hval
      cases hm'
      rw [hx3] at hval; cases hval
  | nt i th hi ht hpc =>
    exact I3_upd h ht rfl (fun _ => rfl) rfl rfl (by simp [hpc, tick]) (by simp [St.go]) (fun h => .inl (by simp [St.go])) (by simp [hi]) (by simp [hi]) (fun _ => ⟨rfl, by simp [St.go]⟩)
  | c0 th ht hpc =>
    exact I3_upd h ht rfl (fun _ => rfl) rfl rfl (by simp [hpc, tick]) (by simp [hpc]) (fun h => .inr ⟨rfl, rfl⟩) (by simp) (fun _ _ _ _ _ _ => .other rfl (by simp) (by simp)) (by simp)
  | c1 th v' x m ht hv hpc hm hx1 hx2 hx3 hx4 hx5 =>
    have hl : last (x :: s.mem) .sig = x.ts := by simp [last, hx1]; omega
    have ha : look ini (x :: s.mem) .sig x.ts = some x := by simp [look_cons, hx1]
    have hp : ∀ a, Pend s a → Pend ({ s with mem := x :: s.mem }.go 0 v' .d0) a := fun a => pend_mono ht rfl (by simp [hpc, tick])
    constructor
    · simp only [St.at, St.go]
      rw [hl, ha]
      intro m' hm' b hlt hn
      cases hm'
      exact Nat.le_trans (h.cov m hm b hlt (fun hc => hn (hp b hc))) (hx4 _)
    · simp only [St.at, St.go]
      rw [hl, ha]
      intro m' hm' hval
      cases hm'
      exact absurd hx3 hval
    · intro m' b _ _ hb
      rcases set_get ht hb with ⟨_, rfl⟩ | ⟨hc, _⟩
      · refine ⟨fun _ a hlt hn => ?_, by simp, by simp⟩
        exact Nat.le_trans (h.cov m hm a hlt (fun hc => hn (hp a hc))) (hx5 _)
      · exact absurd rfl hc
  | cn th ht hpc =>
    exact I3_upd h ht rfl (fun _ => rfl) rfl rfl (by simp [hpc, tick]) (by simp [hpc]) (fun h => .inl (by simp [St.go])) (by simp [hpc]) (fun _ _ _ _ _ _ => .other rfl (by simp) (by simp [St.go])) (by simp)
  | d5 th v' hh x ht hv hpc hx1 hx2 hx3 hx4 =>
    obtain ⟨v, p⟩ := th
    dsimp only at hpc
    subst hpc
    exact I3_upd h ht rfl (by simp [St.at, St.go, look_cons, hx1]) (by simp [St.go, last, hx1]) rfl (by simp [tick]) (by simp) (fun h => .inl h) (by simp) (fun _ hs hp m hm hval => (hs m hm hval).func' hv rfl rfl hp rfl) (by simp)
  | d7 th hh ht hpc =>
    obtain ⟨v, p⟩ := th
    dsimp only at hpc
    subst hpc
    exact I3_upd h ht rfl (fun _ => rfl) rfl rfl (by simp [tick]) (by simp) (fun h => .inl h) (by simp) (fun _ hs hp m hm hval => (hs m hm hval).func' (View.le_refl _) rfl rfl hp rfl) (by simp)
  | d8 th v' hh x ht hv hpc hx1 hx2 =>
    obtain ⟨v, p⟩ := th
    dsimp only at hpc
    subst hpc
    exact I3_upd h ht rfl (by simp [St.at, St.go, look_cons, hx1]) (by simp [St.go, last, hx1]) rfl (by simp [tick]) (by simp) (fun h => .inl h) (by simp) (fun _ hs hp m hm hval => (hs m hm hval).func' hv rfl rfl hp rfl) (by simp)

theorem init_inv (size k : Nat) : I1 size (init k) ∧ I2 (init k) ∧ I3 (init k) := by
  have hth : ∀ (i : Nat) (th : Thr), (init k).ths[i]? = some th → th = ⟨[], .idle⟩ := by
    intro i th h
    have := List.mem_of_getElem? h
    exact List.eq_of_mem_replicate this
  have hat : ∀ l t m, (init k).at l t = some m → t = 0 ∧ m = ⟨l, 0, ini l, []⟩ := by
    intro l t m h; simp [init, St.at, look] at h; exact ⟨h.1, h.2.symm⟩
  have hcnt : ∀ p : Thr → Bool, p ⟨[], .idle⟩ = false → (init k).ths.countP p = 0 := by
    intro p hp
    simp [init, List.countP_replicate, hp]
  refine ⟨⟨?_, by simp [init], cont_nil _ _, ?_, ?_, cont_nil _ _, ?_, rfl, cont_nil _ _, ?_⟩, ⟨rfl, ?_, ?_, fun _ _ => rfl, ?_, List.prefix_rfl⟩, ?_⟩
  · intro i th h; rw [hth i th h]; split <;> rfl
  · intro t m h; rw [(hat _ _ _ h).2]; simp [ini]
  · intro m h; rw [(hat _ _ _ h).2, hcnt _ rfl]; simp [ini]
  · intro t m h; rw [(hat _ _ _ h).2, (hat _ _ _ h).1]; simp [ini]
  · rw [hcnt _ rfl]; simp [init]
  · intro i th h
    rw [hth i th h]
    refine ⟨by simp [tick], by simp, by simp, fun _ => by simp [init, last], ?_, by simp [hh?], by simp [lt?], by simp⟩
    intro _ m h; rw [(hat _ _ _ h).2]; simp [ini, init, inDeq]
  · intro i j a b c ha hb hac
    rw [hth i a ha] at hac; cases hac
  · intro a t m h hv; rw [(hat _ _ _ h).2] at hv; cases hv
  · refine ⟨by simp [init], ?_, ?_⟩
    · intro m h hv; rw [(hat _ _ _ h).2] at hv; exact absurd rfl hv
    · intro m th _ _ h
      rw [hth 0 th h]
      exact ⟨by simp [inFunc], by simp, fun _ => .inr (by simp [init])⟩

/-- The element of a call that has no place yet. -/
def preElem : Pc → Option Nat
  | .e0 e | .e1 e _ | .e2 e _ _ | .e3 e _ | .e4 e _ | .ec e _ _ | .f0 _ (.retry e) => some e
  | _ => none

/-- What thread `i` has enqueued, in this order. -/
def callsOf (h : List (Nat × Nat)) (i : Nat) : List Nat := (h.filter (·.1 = i)).map (·.2)

def preIs (e : Nat) (th : Thr) : Bool := preElem th.pc == some e

/-- The calls so far and the elements that have places. -/
structure I4 (h : List (Nat × Nat)) (s : St) : Prop where
  cnt : ∀ e, s.acc.count e + s.ths.countP (preIs e) = (h.map (·.2)).count e
  done : ∀ (i : Nat) (th : Thr), s.ths[i]? = some th → preElem th.pc = none → (callsOf h i).Sublist s.acc
  pend : ∀ (i : Nat) (th : Thr) e, s.ths[i]? = some th → preElem th.pc = some e → ∃ l, callsOf h i = l ++ [e] ∧ l.Sublist s.acc

theorem I4_upd {s s' : St} {h : List (Nat × Nat)} (h4 : I4 h s) {i : Nat} {th th' : Thr} (ht : s.ths[i]? = some th) (hths : s'.ths = s.ths.set i th')
    (hacc : s'.acc = s.acc) (hp : preElem th'.pc = preElem th.pc) : I4 h s' := by
  constructor
  · intro e
    have := cnt_set (p := preIs e) ht th'
    have h5 := h4.cnt e
    rw [hacc, hths]
    have h6 : preIs e th' = preIs e th := by simp only [preIs, hp]
    rw [h6] at this
    omega
  · intro j b hb hn
    rw [hths] at hb
    rw [hacc]
    rcases set_get ht hb with ⟨rfl, rfl⟩ | ⟨_, hb'⟩
    · exact h4.done j th ht (by rw [← hp]; exact hn)
    · exact h4.done j b hb' hn
  · intro j b e hb hn
    rw [hths] at hb
    rw [hacc]
    rcases set_get ht hb with ⟨rfl, rfl⟩ | ⟨_, hb'⟩
    · exact h4.pend j th e ht (by rw [← hp]; exact hn)
    · exact h4.pend j b e hb' hn

theorem I4_move {size : Nat} {c : List (Nat × Nat)} {s s' : St} {h : List (Nat × Nat)} (h4 : I4 h s) (hm : Move size s c s') : I4 (h ++ c) s' := by
  cases hm with
  | call i th e hi ht hpc =>
    constructor
    · intro e'
      have := cnt_set (p := preIs e') ht ⟨th.view, .e0 e⟩
      have h5 := h4.cnt e'
      simp only [St.go, List.map_append, List.count_append, List.map_cons, List.map_nil, List.count_singleton]
      have h6 : preIs e' th = false := by rw [preIs, hpc]; rfl
      have h7 : preIs e' ⟨th.view, .e0 e⟩ = (e == e') := rfl
      rw [h6, h7] at this
      cases he : e == e' <;> simp only [he, Bool.toNat_false, Bool.toNat_true] at this ⊢ <;> simp <;> omega
    · intro j b hb hn
      rcases set_get ht hb with ⟨rfl, rfl⟩ | ⟨hj, hb'⟩
      · cases hn
      · simpa [callsOf, List.filter_append, List.filter_cons, Ne.symm hj, St.go] using h4.done j b hb' hn
    · intro j b e' hb hn
      rcases set_get ht hb with ⟨rfl, rfl⟩ | ⟨hj, hb'⟩
      · simp only [preElem, Option.some.injEq] at hn
        subst hn
        exact ⟨callsOf h j, by simp [callsOf, List.filter_append, List.filter_cons], h4.done j th ht (by rw [hpc]; rfl)⟩
      · simpa [callsOf, List.filter_append, List.filter_cons, Ne.symm hj, St.go] using h4.pend j b e' hb' hn
  | place i th v' e x hi ht hv hpc hx1 hx2 hx3 hx4 =>
    rw [List.append_nil]
    constructor
    · intro e'
      have := cnt_set (p := preIs e') ht ⟨v', .ed e 0 s.acc.length⟩
      have h5 := h4.cnt e'
      simp only [St.go, List.count_append, List.count_singleton]
      have h6 : preIs e' th = (e == e') := by rw [preIs, hpc]; rfl
      have h7 : preIs e' ⟨v', .ed e 0 s.acc.length⟩ = false := rfl
      rw [h6, h7] at this
      cases he : e == e' <;> simp only [he, Bool.toNat_false, Bool.toNat_true] at this ⊢ <;> simp <;> omega
    · intro j b hb hn
      rcases set_get ht hb with ⟨rfl, rfl⟩ | ⟨hj, hb'⟩
      · obtain ⟨l, hl, hs⟩ := h4.pend j th e ht (by rw [hpc]; rfl)
        rw [hl]
        exact hs.append (List.Sublist.refl _)
      · exact (h4.done j b hb' hn).trans (List.sublist_append_left _ _)
    · intro j b e' hb hn
      rcases set_get ht hb with ⟨rfl, rfl⟩ | ⟨hj, hb'⟩
      · cases hn
      · obtain ⟨l, hl, hs⟩ := h4.pend j b e' hb' hn
        exact ⟨l, hl, hs.trans (List.sublist_append_left _ _)⟩
  | quiet i th v' p' ht hv hq =>
    rw [List.append_nil]
    obtain ⟨v, p⟩ := th
    refine I4_upd h4 ht rfl rfl ?_
    cases hq <;> rfl
  | dec i th v' k x m hi ht hv hpc hk hm hx1 hx2 hx3 =>
    rw [List.append_nil]
    refine I4_upd h4 ht rfl rfl ?_
    rw [hpc]
    rcases hk with ⟨e, rfl⟩ | ⟨a, rfl⟩ <;> rfl
  | ex i th v' a x m p' hi ht hv hpc hm hx1 hx2 hx3 hx4 hx5 hp =>
    rw [List.append_nil]
    refine I4_upd h4 ht rfl rfl ?_
    rw [hpc, hp]
    dsimp only
    split <;> rfl
  | sync i th v' ht hv => rw [List.append_nil]; exact I4_upd h4 ht rfl rfl rfl
  | inc i th v' e c x m hi ht hv hpc => rw [List.append_nil]; exact I4_upd h4 ht rfl rfl (by rw [hpc]; rfl)
  | put i th v' e tt x hi ht hv hpc => rw [List.append_nil]; exact I4_upd h4 ht rfl rfl (by rw [hpc]; rfl)
  | pub i th v' e tt x hi ht hv hpc => rw [List.append_nil]; exact I4_upd h4 ht rfl rfl (by rw [hpc]; rfl)
  | nt i th hi ht hpc => rw [List.append_nil]; exact I4_upd h4 ht rfl rfl (by rw [hpc]; rfl)
  | c0 th ht hpc => rw [List.append_nil]; exact I4_upd h4 ht rfl rfl (by rw [hpc]; rfl)
  | c1 th v' x m ht hv hpc => rw [List.append_nil]; exact I4_upd h4 ht rfl rfl (by rw [hpc]; rfl)
  | cn th ht hpc => rw [List.append_nil]; exact I4_upd h4 ht rfl rfl (by rw [hpc]; rfl)
  | d5 th v' hh x ht hv hpc => rw [List.append_nil]; exact I4_upd h4 ht rfl rfl (by rw [hpc]; rfl)
  | d7 th hh ht hpc => rw [List.append_nil]; exact I4_upd h4 ht rfl rfl (by rw [hpc]; rfl)
  | d8 th v' hh x ht hv hpc => rw [List.append_nil]; exact I4_upd h4 ht rfl rfl (by rw [hpc]; rfl)

theorem move_len {size : Nat} {c : List (Nat × Nat)} {s s' : St} (hm : Move size s c s') : s'.ths.length = s.ths.length := by
  cases hm <;> simp [St.go]

theorem run_inv {size : Nat} : ∀ {as : List Act} {s s' : St} {h : List (Nat × Nat)}, I1 size s → I2 s → I3 s → I4 h s →
    s.acc.length + s.ths.countP pre + (as.filterMap Act.call?).length ≤ size →
    run size s as = some s' → I1 size s' ∧ I2 s' ∧ I3 s' ∧ I4 (h ++ as.filterMap Act.call?) s' ∧ s'.ths.length = s.ths.length := by
  intro as
  induction as with
  | nil => intro s s' h h1 h2 h3 h4 _ hr; cases hr; exact ⟨h1, h2, h3, by simpa using h4, rfl⟩
  | cons a as ih =>
    intro s s' h h1 h2 h3 h4 hc hr
    simp only [run, Option.bind_eq_some_iff] at hr
    obtain ⟨s1, ha, hr⟩ := hr
    have hm := step_move h1 ha
    have hcap := move_cap hm
    have hl : (a :: as).filterMap Act.call? = a.call?.toList ++ as.filterMap Act.call? := by
      rw [List.filterMap_cons]; cases a.call? <;> rfl
    rw [hl, List.length_append] at hc
    rw [hl, ← List.append_assoc, ← move_len hm]
    exact ih (I1_move h1 hm (by omega)) (I2_move h1 h2 hm) (I3_move h1 h2 h3 hm) (I4_move h4 hm) (by omega) hr

end WQ
end Salticidae
