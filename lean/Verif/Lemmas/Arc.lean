import Verif.Model.Arc
namespace Salticidae
namespace Arc

theorem count_set {l : List Pc} {i : Nat} {p : Pc} (h : l[i]? = some p) (q x : Pc) :
    (l.set i q).count x + (if p = x then 1 else 0) = l.count x + (if q = x then 1 else 0) := by
  induction l generalizing i with
  | nil => simp at h
  | cons a l ih =>
    cases i with
    | zero => simp at h; subst h; simp [List.count_cons]; omega
    | succ i => simp at h; have := ih h; simp [List.count_cons]; omega

/-- The counts of all program counters. -/
def n (s : St) (p : Pc) : Nat := s.ops.count p

/-- Operations that have incremented and not yet decremented `dcnt`. -/
def inD (s : St) : Nat := n s .r1 + n s .r2 + n s .r3 + n s .r4 + n s .r5 + n s .w1 + n s .w2 + n s .w3 + n s .w5

theorem active_eq (s : St) : active s = n s .r1 + n s .r2 + n s .r3 + n s .r4 + n s .r5 + n s .r6 + n s .r7 +
    n s .w1 + n s .w2 + n s .w3 + n s .w5 + n s .w6 + n s .u1 := by
  unfold active n
  induction s.ops with
  | nil => rfl
  | cons a l ih =>
    rw [List.countP_cons, ih]
    simp only [List.count_cons]
    cases a <;> simp <;> omega

@[simp] theorem touch_ref (s : St) : (touch s).ref = s.ref := by unfold touch; split <;> rfl
@[simp] theorem touch_weak (s : St) : (touch s).weak = s.weak := by unfold touch; split <;> rfl
@[simp] theorem touch_dcnt (s : St) : (touch s).dcnt = s.dcnt := by unfold touch; split <;> rfl
@[simp] theorem touch_freed (s : St) : (touch s).freed = s.freed := by unfold touch; split <;> rfl
@[simp] theorem touch_destroyed (s : St) : (touch s).destroyed = s.destroyed := by unfold touch; split <;> rfl
@[simp] theorem touch_strong (s : St) : (touch s).strong = s.strong := by unfold touch; split <;> rfl
@[simp] theorem touch_weakH (s : St) : (touch s).weakH = s.weakH := by unfold touch; split <;> rfl
@[simp] theorem touch_ops (s : St) : (touch s).ops = s.ops := by unfold touch; split <;> rfl
theorem touch_uaf {s : St} (h : s.freed = 0) : (touch s).uaf = s.uaf := by unfold touch; rw [if_pos h]

/-- The counts of the program counters after operation `i` moves from `p` to `q`. -/
theorem n_all {s : St} {i : Nat} {p : Pc} (h : s.ops[i]? = some p) (q : Pc) :
    ∀ x, (s.ops.set i q).count x + (if p = x then 1 else 0) = n s x + (if q = x then 1 else 0) :=
  fun x => count_set h q x

theorem n_pos {s : St} {i : Nat} {p : Pc} (h : s.ops[i]? = some p) : 0 < n s p :=
  List.count_pos_iff.2 (List.mem_of_getElem? h)

open Lean Parser.Tactic in
/-- Bring the counts of all program counters after a step into the context. -/
macro "counts" h:term:max q:term:max : tactic => `(tactic| (
  have K := n_all $h $q
  have k1 := K .r1; have k2 := K .r2; have k3 := K .r3; have k4 := K .r4; have k5 := K .r5
  have k6 := K .r6; have k7 := K .r7; have k8 := K .w1; have k9 := K .w2; have k10 := K .w3
  have k11 := K .w5; have k12 := K .w6; have k13 := K .u1
  clear K
  simp only [reduceCtorEq, if_true, if_false, Nat.add_zero] at k1 k2 k3 k4 k5 k6 k7 k8 k9 k10 k11 k12 k13))

/-- The object's life, in all runs in which every completed upgrade found the count still positive. -/
structure ObjInv (s : St) : Prop where
  ref : s.ref = s.strong + n s .r1
  weak : s.weak = s.weakH + n s .w1 + n s .u1
  fin : (s.ref = 0 → n s .r3 + n s .r4 + n s .r5 + n s .r6 + n s .r7 + s.destroyed = 1) ∧
    (s.ref ≠ 0 → n s .r3 + n s .r4 + n s .r5 + n s .r6 + n s .r7 + s.destroyed = 0)

theorem objInv_init : ObjInv init := ⟨rfl, rfl, by decide⟩

theorem objInv_step {m : Nat} {s s' : St} {a : Act} (hi : ObjInv s) (h : step m s a = some s')
    (hu : ∀ i, a = .next i → s.ops[i]? = some .u1 → s.ref ≠ 0) : ObjInv s' := by
  obtain ⟨h1, h2, h3⟩ := hi
  cases a with
  | copy =>
    simp only [step] at h; split at h <;> cases h
    refine ⟨?_, ?_, ?_⟩ <;> simp [n] at * <;> omega
  | drop =>
    simp only [step] at h; split at h <;> cases h
    refine ⟨?_, ?_, ?_⟩ <;> simp [n, List.count_append] at * <;> omega
  | weakOf =>
    simp only [step] at h; split at h <;> cases h
    refine ⟨?_, ?_, ?_⟩ <;> simp [n] at * <;> omega
  | weakCopy =>
    simp only [step] at h; split at h <;> cases h
    refine ⟨?_, ?_, ?_⟩ <;> simp [n] at * <;> omega
  | weakDrop =>
    simp only [step] at h; split at h <;> cases h
    refine ⟨?_, ?_, ?_⟩ <;> simp [n, List.count_append] at * <;> omega
  | upgrade =>
    simp only [step] at h; split at h
    · cases h
    · split at h <;> cases h
      · refine ⟨?_, ?_, ?_⟩ <;> simp [n] at * <;> omega
      · refine ⟨?_, ?_, ?_⟩ <;> simp [n, List.count_append] at * <;> omega
  | next i =>
    simp only [step] at h
    rcases hp : s.ops[i]? with _ | p
    · rw [hp] at h; cases h
    · rw [hp] at h
      have hn := n_pos hp
      cases p <;> simp only [Option.some.injEq, reduceCtorEq] at h
      case r1 =>
        subst h
        by_cases hz : s.ref - 1 ≠ 0
        · simp only [if_pos hz]
          counts hp .r2
          refine ⟨?_, ?_, ?_⟩ <;> simp [n] at * <;> omega
        · simp only [if_neg hz]
          counts hp .r3
          refine ⟨?_, ?_, ?_⟩ <;> simp [n] at * <;> omega
      case r2 =>
        subst h
        counts hp .done
        refine ⟨?_, ?_, ?_⟩ <;> simp [n] at * <;> omega
      case r3 =>
        subst h
        split
        · counts hp .r4
          refine ⟨?_, ?_, ?_⟩ <;> simp [n] at * <;> omega
        · counts hp .r5
          refine ⟨?_, ?_, ?_⟩ <;> simp [n] at * <;> omega
      case r4 =>
        subst h
        counts hp .r7
        refine ⟨?_, ?_, ?_⟩ <;> simp [n] at * <;> omega
      case r5 =>
        subst h
        split
        · counts hp .r6
          refine ⟨?_, ?_, ?_⟩ <;> simp [n] at * <;> omega
        · counts hp .r7
          refine ⟨?_, ?_, ?_⟩ <;> simp [n] at * <;> omega
      case r6 =>
        subst h
        counts hp .r7
        refine ⟨?_, ?_, ?_⟩ <;> simp [n] at * <;> omega
      case r7 =>
        subst h
        counts hp .done
        refine ⟨?_, ?_, ?_⟩ <;> simp [n] at * <;> omega
      case w1 =>
        subst h
        split
        · counts hp .w2
          refine ⟨?_, ?_, ?_⟩ <;> simp [n] at * <;> omega
        · counts hp .w3
          refine ⟨?_, ?_, ?_⟩ <;> simp [n] at * <;> omega
      case w2 =>
        subst h
        counts hp .done
        refine ⟨?_, ?_, ?_⟩ <;> simp [n] at * <;> omega
      case w3 =>
        subst h
        split
        · counts hp .w2
          refine ⟨?_, ?_, ?_⟩ <;> simp [n] at * <;> omega
        · counts hp .w5
          refine ⟨?_, ?_, ?_⟩ <;> simp [n] at * <;> omega
      case w5 =>
        subst h
        split
        · counts hp .w6
          refine ⟨?_, ?_, ?_⟩ <;> simp [n] at * <;> omega
        · counts hp .done
          refine ⟨?_, ?_, ?_⟩ <;> simp [n] at * <;> omega
      case w6 =>
        subst h
        counts hp .done
        refine ⟨?_, ?_, ?_⟩ <;> simp [n] at * <;> omega
      case u1 =>
        subst h
        have := hu i rfl hp
        counts hp .done
        refine ⟨?_, ?_, ?_⟩ <;> simp [n] at * <;> omega

/-- The control block's life, in the runs described in Props/Arc. -/
structure SafeInv (m : Nat) (s : St) : Prop where
  obj : ObjInv s
  d : s.dcnt = inD s % m
  w3 : 0 < n s .w3 → s.weak = 0
  zero : 0 < n s .r5 + n s .w5 + n s .r6 + n s .w6 + s.freed → s.ref = 0 ∧ s.weak = 0
  one : n s .r6 + n s .w6 + s.freed ≤ 1
  last : 0 < n s .r6 + n s .w6 + s.freed → inD s = 0
  uaf : s.uaf = false

theorem safeInv_init {m : Nat} : SafeInv m init :=
  ⟨objInv_init, by simp [init, inD, n], by decide, by decide, by decide, by decide, rfl⟩

theorem mod_inc {d D m : Nat} (h : d = D % m) : (d + 1) % m = (D + 1) % m := by
  subst h; exact Nat.mod_add_mod D m 1

theorem mod_dec {d D m : Nat} (h : d = (D + 1) % m) (hm : 0 < m) : (d + (m - 1)) % m = D % m := by
  subst h; rw [Nat.mod_add_mod, show D + 1 + (m - 1) = D + m by omega, Nat.add_mod_right]

/-- What the runs considered satisfy at every step. -/
structure Cond (m : Nat) (s : St) (a : Act) : Prop where
  few : active s < m
  upg : ∀ i, a = .next i → s.ops[i]? = some .u1 → s.ref ≠ 0
  noMk : a = .weakOf ∨ a = .weakCopy → .w3 ∉ s.ops

set_option maxHeartbeats 1000000 in
theorem safeInv_step {m : Nat} {s s' : St} {a : Act} (hi : SafeInv m s) (h : step m s a = some s')
    (hc : Cond m s a) : SafeInv m s' := by
  have ho := objInv_step hi.obj h hc.upg
  obtain ⟨⟨h1, h2, h3⟩, h4, h5, h6, h7, h8, h9⟩ := hi
  have hf : s.freed = 0 ∨ (inD s = 0 ∧ s.ref = 0 ∧ s.weak = 0) := by
    rcases Nat.eq_zero_or_pos s.freed with e | e
    · exact .inl e
    · exact .inr ⟨h8 (by omega), h6 (by omega)⟩
  have hact := hc.few
  rw [active_eq] at hact
  have hmk := hc.noMk
  cases a with
  | copy =>
    simp only [step] at h; split at h <;> cases h
    have hu := touch_uaf (s := s) (by omega)
    refine ⟨ho, ?_, ?_, ?_, ?_, ?_, ?_⟩ <;> simp only [n, inD, touch_ref, touch_weak, touch_dcnt, touch_freed, touch_destroyed, touch_strong, touch_weakH, touch_ops] at * <;> first | assumption | omega | (rw [hu]; assumption)
  | drop =>
    simp only [step] at h; split at h <;> cases h
    have hu := touch_uaf (s := s) (by omega)
    refine ⟨ho, ?_, ?_, ?_, ?_, ?_, ?_⟩
    · show (s.dcnt + 1) % m = _
      rw [mod_inc h4]; congr 1; simp [inD, n, List.count_append]; omega
    all_goals simp [n, inD, List.count_append, -List.count_pos_iff] at *
    all_goals first | assumption | omega | (rw [hu]; assumption)
  | weakOf =>
    have hw3 := hmk (.inl rfl)
    rw [← List.count_eq_zero] at hw3
    simp only [step] at h; split at h <;> cases h
    have hu := touch_uaf (s := s) (by omega)
    refine ⟨ho, ?_, ?_, ?_, ?_, ?_, ?_⟩ <;> simp only [n, inD, touch_ref, touch_weak, touch_dcnt, touch_freed, touch_destroyed, touch_strong, touch_weakH, touch_ops] at * <;> first | assumption | omega | (rw [hu]; assumption)
  | weakCopy =>
    have hw3 := hmk (.inr rfl)
    rw [← List.count_eq_zero] at hw3
    simp only [step] at h; split at h <;> cases h
    have hu := touch_uaf (s := s) (by omega)
    refine ⟨ho, ?_, ?_, ?_, ?_, ?_, ?_⟩ <;> simp only [n, inD, touch_ref, touch_weak, touch_dcnt, touch_freed, touch_destroyed, touch_strong, touch_weakH, touch_ops] at * <;> first | assumption | omega | (rw [hu]; assumption)
  | weakDrop =>
    simp only [step] at h; split at h <;> cases h
    have hu := touch_uaf (s := s) (by omega)
    refine ⟨ho, ?_, ?_, ?_, ?_, ?_, ?_⟩
    · show (s.dcnt + 1) % m = _
      rw [mod_inc h4]; congr 1; simp [inD, n, List.count_append]; omega
    all_goals simp [n, inD, List.count_append, -List.count_pos_iff] at *
    all_goals first | assumption | omega | (rw [hu]; assumption)
  | upgrade =>
    simp only [step] at h; split at h
    · cases h
    · have hu := touch_uaf (s := s) (by omega)
      split at h <;> cases h
      · refine ⟨ho, ?_, ?_, ?_, ?_, ?_, ?_⟩ <;> simp only [n, inD, touch_ref, touch_weak, touch_dcnt, touch_freed, touch_destroyed, touch_strong, touch_weakH, touch_ops] at * <;> first | assumption | omega | (rw [hu]; assumption)
      · refine ⟨ho, ?_, ?_, ?_, ?_, ?_, ?_⟩ <;> simp [n, inD, List.count_append, -List.count_pos_iff] at * <;> first | assumption | omega | (rw [hu]; assumption)
  | next i =>
    simp only [step] at h
    rcases hp : s.ops[i]? with _ | p
    · rw [hp] at h; cases h
    · rw [hp] at h
      have hn := n_pos hp
      have hu := touch_uaf (s := s)
      cases p <;> simp only [Option.some.injEq, reduceCtorEq] at h
      case r1 =>
        have hu := hu (by unfold inD at hf; omega)
        subst h
        by_cases hz : s.ref - 1 ≠ 0
        · simp only [if_pos hz] at ho ⊢
          counts hp .r2
          refine ⟨ho, ?_, ?_, ?_, ?_, ?_, ?_⟩
          · show (touch s).dcnt = _
            rw [touch_dcnt, h4]; congr 1; simp only [inD, n] at *; omega
          all_goals simp only [n, inD, touch_ref, touch_weak, touch_dcnt, touch_freed, touch_destroyed, touch_strong, touch_weakH, touch_ops] at *
          all_goals first | assumption | omega | (rw [hu]; assumption)
        · simp only [if_neg hz] at ho ⊢
          counts hp .r3
          refine ⟨ho, ?_, ?_, ?_, ?_, ?_, ?_⟩
          · show (touch s).dcnt = _
            rw [touch_dcnt, h4]; congr 1; simp only [inD, n] at *; omega
          all_goals simp only [n, inD, touch_ref, touch_weak, touch_dcnt, touch_freed, touch_destroyed, touch_strong, touch_weakH, touch_ops] at *
          all_goals first | assumption | omega | (rw [hu]; assumption)
      case r2 =>
        have hu := hu (by unfold inD at hf; omega)
        subst h
        counts hp .done
        refine ⟨ho, ?_, ?_, ?_, ?_, ?_, ?_⟩
        · show (s.dcnt + (m - 1)) % m = _
          exact mod_dec (by rw [h4]; congr 1; simp only [inD, n] at *; omega) (by omega)
        all_goals simp only [n, inD, touch_ref, touch_weak, touch_dcnt, touch_freed, touch_destroyed, touch_strong, touch_weakH, touch_ops] at *
        all_goals first | assumption | omega | (rw [hu]; assumption)
      case r3 =>
        have hu := hu (by unfold inD at hf; omega)
        subst h
        by_cases hz : s.weak ≠ 0
        · simp only [if_pos hz] at ho ⊢
          counts hp .r4
          refine ⟨ho, ?_, ?_, ?_, ?_, ?_, ?_⟩
          · show (touch s).dcnt = _
            rw [touch_dcnt, h4]; congr 1; simp only [inD, n] at *; omega
          all_goals simp only [n, inD, touch_ref, touch_weak, touch_dcnt, touch_freed, touch_destroyed, touch_strong, touch_weakH, touch_ops] at *
          all_goals first | assumption | omega | (rw [hu]; assumption)
        · simp only [if_neg hz] at ho ⊢
          counts hp .r5
          refine ⟨ho, ?_, ?_, ?_, ?_, ?_, ?_⟩
          · show (touch s).dcnt = _
            rw [touch_dcnt, h4]; congr 1; simp only [inD, n] at *; omega
          all_goals simp only [n, inD, touch_ref, touch_weak, touch_dcnt, touch_freed, touch_destroyed, touch_strong, touch_weakH, touch_ops] at *
          all_goals first | assumption | omega | (rw [hu]; assumption)
      case r4 =>
        have hu := hu (by unfold inD at hf; omega)
        subst h
        counts hp .r7
        refine ⟨ho, ?_, ?_, ?_, ?_, ?_, ?_⟩
        · show (s.dcnt + (m - 1)) % m = _
          exact mod_dec (by rw [h4]; congr 1; simp only [inD, n] at *; omega) (by omega)
        all_goals simp only [n, inD, touch_ref, touch_weak, touch_dcnt, touch_freed, touch_destroyed, touch_strong, touch_weakH, touch_ops] at *
        all_goals first | assumption | omega | (rw [hu]; assumption)
      case r5 =>
        have hu := hu (by unfold inD at hf; omega)
        subst h
        have hd : (s.dcnt + (m - 1)) % m = inD s - 1 := by
          rw [mod_dec (D := inD s - 1) (by rw [h4]; congr 1; unfold inD; omega) (by omega)]
          exact Nat.mod_eq_of_lt (by unfold inD; omega)
        by_cases hz : (s.dcnt + (m - 1)) % m = 0
        · simp only [if_pos hz] at ho ⊢
          counts hp .r6
          refine ⟨ho, ?_, ?_, ?_, ?_, ?_, ?_⟩
          · show (s.dcnt + (m - 1)) % m = _
            exact mod_dec (by rw [h4]; congr 1; simp only [inD, n] at *; omega) (by omega)
          all_goals rw [hd] at hz
          all_goals clear hd
          all_goals simp only [n, inD, touch_ref, touch_weak, touch_dcnt, touch_freed, touch_destroyed, touch_strong, touch_weakH, touch_ops] at *
          all_goals first | assumption | omega | (rw [hu]; assumption)
        · simp only [if_neg hz] at ho ⊢
          counts hp .r7
          refine ⟨ho, ?_, ?_, ?_, ?_, ?_, ?_⟩
          · show (s.dcnt + (m - 1)) % m = _
            exact mod_dec (by rw [h4]; congr 1; simp only [inD, n] at *; omega) (by omega)
          all_goals rw [hd] at hz
          all_goals clear hd
          all_goals simp only [n, inD, touch_ref, touch_weak, touch_dcnt, touch_freed, touch_destroyed, touch_strong, touch_weakH, touch_ops] at *
          all_goals first | assumption | omega | (rw [hu]; assumption)
      case r6 =>
        subst h
        counts hp .r7
        refine ⟨ho, ?_, ?_, ?_, ?_, ?_, ?_⟩
        · show s.dcnt = _
          rw [h4]; congr 1; simp only [inD, n] at *; omega
        all_goals simp only [n, inD, touch_ref, touch_weak, touch_dcnt, touch_freed, touch_destroyed, touch_strong, touch_weakH, touch_ops] at *
        all_goals first | assumption | omega
      case r7 =>
        subst h
        counts hp .done
        refine ⟨ho, ?_, ?_, ?_, ?_, ?_, ?_⟩
        · show s.dcnt = _
          rw [h4]; congr 1; simp only [inD, n] at *; omega
        all_goals simp only [n, inD, touch_ref, touch_weak, touch_dcnt, touch_freed, touch_destroyed, touch_strong, touch_weakH, touch_ops] at *
        all_goals first | assumption | omega
      case w1 =>
        have hu := hu (by unfold inD at hf; omega)
        subst h
        by_cases hz : s.weak - 1 ≠ 0
        · simp only [if_pos hz] at ho ⊢
          counts hp .w2
          refine ⟨ho, ?_, ?_, ?_, ?_, ?_, ?_⟩
          · show (touch s).dcnt = _
            rw [touch_dcnt, h4]; congr 1; simp only [inD, n] at *; omega
          all_goals simp only [n, inD, touch_ref, touch_weak, touch_dcnt, touch_freed, touch_destroyed, touch_strong, touch_weakH, touch_ops] at *
          all_goals first | assumption | omega | (rw [hu]; assumption)
        · simp only [if_neg hz] at ho ⊢
          counts hp .w3
          refine ⟨ho, ?_, ?_, ?_, ?_, ?_, ?_⟩
          · show (touch s).dcnt = _
            rw [touch_dcnt, h4]; congr 1; simp only [inD, n] at *; omega
          all_goals simp only [n, inD, touch_ref, touch_weak, touch_dcnt, touch_freed, touch_destroyed, touch_strong, touch_weakH, touch_ops] at *
          all_goals first | assumption | omega | (rw [hu]; assumption)
      case w2 =>
        have hu := hu (by unfold inD at hf; omega)
        subst h
        counts hp .done
        refine ⟨ho, ?_, ?_, ?_, ?_, ?_, ?_⟩
        · show (s.dcnt + (m - 1)) % m = _
          exact mod_dec (by rw [h4]; congr 1; simp only [inD, n] at *; omega) (by omega)
        all_goals simp only [n, inD, touch_ref, touch_weak, touch_dcnt, touch_freed, touch_destroyed, touch_strong, touch_weakH, touch_ops] at *
        all_goals first | assumption | omega | (rw [hu]; assumption)
      case w3 =>
        have hu := hu (by unfold inD at hf; omega)
        subst h
        by_cases hz : s.ref ≠ 0
        · simp only [if_pos hz] at ho ⊢
          counts hp .w2
          refine ⟨ho, ?_, ?_, ?_, ?_, ?_, ?_⟩
          · show (touch s).dcnt = _
            rw [touch_dcnt, h4]; congr 1; simp only [inD, n] at *; omega
          all_goals simp only [n, inD, touch_ref, touch_weak, touch_dcnt, touch_freed, touch_destroyed, touch_strong, touch_weakH, touch_ops] at *
          all_goals first | assumption | omega | (rw [hu]; assumption)
        · simp only [if_neg hz] at ho ⊢
          counts hp .w5
          refine ⟨ho, ?_, ?_, ?_, ?_, ?_, ?_⟩
          · show (touch s).dcnt = _
            rw [touch_dcnt, h4]; congr 1; simp only [inD, n] at *; omega
          all_goals simp only [n, inD, touch_ref, touch_weak, touch_dcnt, touch_freed, touch_destroyed, touch_strong, touch_weakH, touch_ops] at *
          all_goals first | assumption | omega | (rw [hu]; assumption)
      case w5 =>
        have hu := hu (by unfold inD at hf; omega)
        subst h
        have hd : (s.dcnt + (m - 1)) % m = inD s - 1 := by
          rw [mod_dec (D := inD s - 1) (by rw [h4]; congr 1; unfold inD; omega) (by omega)]
          exact Nat.mod_eq_of_lt (by unfold inD; omega)
        by_cases hz : (s.dcnt + (m - 1)) % m = 0
        · simp only [if_pos hz] at ho ⊢
          counts hp .w6
          refine ⟨ho, ?_, ?_, ?_, ?_, ?_, ?_⟩
          · show (s.dcnt + (m - 1)) % m = _
            exact mod_dec (by rw [h4]; congr 1; simp only [inD, n] at *; omega) (by omega)
          all_goals rw [hd] at hz
          all_goals clear hd
          all_goals simp only [n, inD, touch_ref, touch_weak, touch_dcnt, touch_freed, touch_destroyed, touch_strong, touch_weakH, touch_ops] at *
          all_goals first | assumption | omega | (rw [hu]; assumption)
        · simp only [if_neg hz] at ho ⊢
          counts hp .done
          refine ⟨ho, ?_, ?_, ?_, ?_, ?_, ?_⟩
          · show (s.dcnt + (m - 1)) % m = _
            exact mod_dec (by rw [h4]; congr 1; simp only [inD, n] at *; omega) (by omega)
          all_goals rw [hd] at hz
          all_goals clear hd
          all_goals simp only [n, inD, touch_ref, touch_weak, touch_dcnt, touch_freed, touch_destroyed, touch_strong, touch_weakH, touch_ops] at *
          all_goals first | assumption | omega | (rw [hu]; assumption)
      case w6 =>
        subst h
        counts hp .done
        refine ⟨ho, ?_, ?_, ?_, ?_, ?_, ?_⟩
        · show s.dcnt = _
          rw [h4]; congr 1; simp only [inD, n] at *; omega
        all_goals simp only [n, inD, touch_ref, touch_weak, touch_dcnt, touch_freed, touch_destroyed, touch_strong, touch_weakH, touch_ops] at *
        all_goals first | assumption | omega
      case u1 =>
        have hu := hu (by unfold inD at hf; omega)
        have := hc.upg i rfl hp
        subst h
        counts hp .done
        refine ⟨ho, ?_, ?_, ?_, ?_, ?_, ?_⟩
        · show (touch s).dcnt = _
          rw [touch_dcnt, h4]; congr 1; simp only [inD, n] at *; omega
        all_goals simp only [n, inD, touch_ref, touch_weak, touch_dcnt, touch_freed, touch_destroyed, touch_strong, touch_weakH, touch_ops] at *
        all_goals first | assumption | omega | (rw [hu]; assumption)

/-- Nothing is forgotten when operations do not overlap. -/
structure SeqInv (s : St) : Prop where
  done : s.ref = 0 → s.weak = 0 → inD s = 0 → n s .r6 + n s .w6 + s.freed = 1
  r2 : 0 < n s .r2 → s.ref ≠ 0
  r4 : 0 < n s .r4 → s.weak ≠ 0
  w2 : 0 < n s .w2 → s.ref ≠ 0 ∨ s.weak ≠ 0

set_option maxHeartbeats 1000000 in
theorem seqInv_step {m : Nat} {s s' : St} {a : Act} (hi : SafeInv m s) (hq : SeqInv s)
    (h : step m s a = some s') (hc : Cond m s a) (h' : active s ≤ 1) : SeqInv s' := by
  obtain ⟨⟨h1, h2, h3⟩, h4, h5, h6, h7, h8, h9⟩ := hi
  obtain ⟨q1, q2, q3, q4⟩ := hq
  have hact := hc.few
  rw [active_eq] at hact h'
  cases a with
  | copy =>
    simp only [step] at h; split at h <;> cases h
    refine ⟨?_, ?_, ?_, ?_⟩ <;> simp only [n, inD, touch_ref, touch_weak, touch_dcnt, touch_freed, touch_destroyed, touch_strong, touch_weakH, touch_ops] at * <;> first | assumption | omega
  | drop =>
    simp only [step] at h; split at h <;> cases h
    refine ⟨?_, ?_, ?_, ?_⟩ <;> simp [n, inD, List.count_append, -List.count_pos_iff] at * <;> first | assumption | omega
  | weakOf =>
    simp only [step] at h; split at h <;> cases h
    refine ⟨?_, ?_, ?_, ?_⟩ <;> simp only [n, inD, touch_ref, touch_weak, touch_dcnt, touch_freed, touch_destroyed, touch_strong, touch_weakH, touch_ops] at * <;> first | assumption | omega
  | weakCopy =>
    simp only [step] at h; split at h <;> cases h
    refine ⟨?_, ?_, ?_, ?_⟩ <;> simp only [n, inD, touch_ref, touch_weak, touch_dcnt, touch_freed, touch_destroyed, touch_strong, touch_weakH, touch_ops] at * <;> first | assumption | omega
  | weakDrop =>
    simp only [step] at h; split at h <;> cases h
    refine ⟨?_, ?_, ?_, ?_⟩ <;> simp [n, inD, List.count_append, -List.count_pos_iff] at * <;> first | assumption | omega
  | upgrade =>
    simp only [step] at h; split at h
    · cases h
    · split at h <;> cases h
      · refine ⟨?_, ?_, ?_, ?_⟩ <;> simp only [n, inD, touch_ref, touch_weak, touch_dcnt, touch_freed, touch_destroyed, touch_strong, touch_weakH, touch_ops] at * <;> first | assumption | omega
      · refine ⟨?_, ?_, ?_, ?_⟩ <;> simp [n, inD, List.count_append, -List.count_pos_iff] at * <;> first | assumption | omega
  | next i =>
    simp only [step] at h
    rcases hp : s.ops[i]? with _ | p
    · rw [hp] at h; cases h
    · rw [hp] at h
      have hn := n_pos hp
      cases p <;> simp only [Option.some.injEq, reduceCtorEq] at h
      all_goals subst h
      case r1 =>
        by_cases hz : s.ref - 1 ≠ 0
        · simp only [if_pos hz]
          counts hp .r2
          refine ⟨?_, ?_, ?_, ?_⟩ <;> simp only [n, inD, touch_ref, touch_weak, touch_dcnt, touch_freed, touch_destroyed, touch_strong, touch_weakH, touch_ops] at * <;> omega
        · simp only [if_neg hz]
          counts hp .r3
          refine ⟨?_, ?_, ?_, ?_⟩ <;> simp only [n, inD, touch_ref, touch_weak, touch_dcnt, touch_freed, touch_destroyed, touch_strong, touch_weakH, touch_ops] at * <;> omega
      case r2 =>
        counts hp .done
        refine ⟨?_, ?_, ?_, ?_⟩ <;> simp only [n, inD, touch_ref, touch_weak, touch_dcnt, touch_freed, touch_destroyed, touch_strong, touch_weakH, touch_ops] at * <;> omega
      case r3 =>
        by_cases hz : s.weak ≠ 0
        · simp only [if_pos hz]
          counts hp .r4
          refine ⟨?_, ?_, ?_, ?_⟩ <;> simp only [n, inD, touch_ref, touch_weak, touch_dcnt, touch_freed, touch_destroyed, touch_strong, touch_weakH, touch_ops] at * <;> omega
        · simp only [if_neg hz]
          counts hp .r5
          refine ⟨?_, ?_, ?_, ?_⟩ <;> simp only [n, inD, touch_ref, touch_weak, touch_dcnt, touch_freed, touch_destroyed, touch_strong, touch_weakH, touch_ops] at * <;> omega
      case r4 =>
        counts hp .r7
        refine ⟨?_, ?_, ?_, ?_⟩ <;> simp only [n, inD, touch_ref, touch_weak, touch_dcnt, touch_freed, touch_destroyed, touch_strong, touch_weakH, touch_ops] at * <;> omega
      case r5 =>
        have hd : (s.dcnt + (m - 1)) % m = inD s - 1 := by
          rw [mod_dec (D := inD s - 1) (by rw [h4]; congr 1; unfold inD; omega) (by omega)]
          exact Nat.mod_eq_of_lt (by unfold inD; omega)
        rw [hd]
        by_cases hz : inD s - 1 = 0
        · simp only [if_pos hz]
          clear hd
          counts hp .r6
          refine ⟨?_, ?_, ?_, ?_⟩ <;> simp only [n, inD, touch_ref, touch_weak, touch_dcnt, touch_freed, touch_destroyed, touch_strong, touch_weakH, touch_ops] at * <;> omega
        · exfalso; unfold inD at hz; omega
      case r6 =>
        counts hp .r7
        refine ⟨?_, ?_, ?_, ?_⟩ <;> simp only [n, inD, touch_ref, touch_weak, touch_dcnt, touch_freed, touch_destroyed, touch_strong, touch_weakH, touch_ops] at * <;> omega
      case r7 =>
        counts hp .done
        refine ⟨?_, ?_, ?_, ?_⟩ <;> simp only [n, inD, touch_ref, touch_weak, touch_dcnt, touch_freed, touch_destroyed, touch_strong, touch_weakH, touch_ops] at * <;> omega
      case w1 =>
        by_cases hz : s.weak - 1 ≠ 0
        · simp only [if_pos hz]
          counts hp .w2
          refine ⟨?_, ?_, ?_, ?_⟩ <;> simp only [n, inD, touch_ref, touch_weak, touch_dcnt, touch_freed, touch_destroyed, touch_strong, touch_weakH, touch_ops] at * <;> omega
        · simp only [if_neg hz]
          counts hp .w3
          refine ⟨?_, ?_, ?_, ?_⟩ <;> simp only [n, inD, touch_ref, touch_weak, touch_dcnt, touch_freed, touch_destroyed, touch_strong, touch_weakH, touch_ops] at * <;> omega
      case w2 =>
        counts hp .done
        refine ⟨?_, ?_, ?_, ?_⟩ <;> simp only [n, inD, touch_ref, touch_weak, touch_dcnt, touch_freed, touch_destroyed, touch_strong, touch_weakH, touch_ops] at * <;> omega
      case w3 =>
        by_cases hz : s.ref ≠ 0
        · simp only [if_pos hz]
          counts hp .w2
          refine ⟨?_, ?_, ?_, ?_⟩ <;> simp only [n, inD, touch_ref, touch_weak, touch_dcnt, touch_freed, touch_destroyed, touch_strong, touch_weakH, touch_ops] at * <;> omega
        · simp only [if_neg hz]
          counts hp .w5
          refine ⟨?_, ?_, ?_, ?_⟩ <;> simp only [n, inD, touch_ref, touch_weak, touch_dcnt, touch_freed, touch_destroyed, touch_strong, touch_weakH, touch_ops] at * <;> omega
      case w5 =>
        have hd : (s.dcnt + (m - 1)) % m = inD s - 1 := by
          rw [mod_dec (D := inD s - 1) (by rw [h4]; congr 1; unfold inD; omega) (by omega)]
          exact Nat.mod_eq_of_lt (by unfold inD; omega)
        rw [hd]
        by_cases hz : inD s - 1 = 0
        · simp only [if_pos hz]
          clear hd
          counts hp .w6
          refine ⟨?_, ?_, ?_, ?_⟩ <;> simp only [n, inD, touch_ref, touch_weak, touch_dcnt, touch_freed, touch_destroyed, touch_strong, touch_weakH, touch_ops] at * <;> omega
        · exfalso; unfold inD at hz; omega
      case w6 =>
        counts hp .done
        refine ⟨?_, ?_, ?_, ?_⟩ <;> simp only [n, inD, touch_ref, touch_weak, touch_dcnt, touch_freed, touch_destroyed, touch_strong, touch_weakH, touch_ops] at * <;> omega
      case u1 =>
        have := hc.upg i rfl hp
        counts hp .done
        refine ⟨?_, ?_, ?_, ?_⟩ <;> simp only [n, inD, touch_ref, touch_weak, touch_dcnt, touch_freed, touch_destroyed, touch_strong, touch_weakH, touch_ops] at * <;> omega

/-- Without upgrades no operation is ever an upgrade. -/
theorem no_u1 {m : Nat} : ∀ (as : List Act) (s : St), Act.upgrade ∉ as → n s .u1 = 0 →
    ∀ x ∈ trace m s as, n x.1 .u1 = 0 := by
  intro as
  induction as with
  | nil => intro s _ _ x hx; simp [trace] at hx
  | cons a as ih =>
    intro s hn hu x hx
    simp only [trace, List.mem_cons] at hx
    rcases hx with rfl | hx
    · exact hu
    · rcases e : step m s a with _ | s1
      · rw [e] at hx; simp at hx
      · rw [e] at hx
        refine ih s1 (fun hm => hn (List.mem_cons_of_mem _ hm)) ?_ x hx
        cases a with
        | upgrade => exact absurd (List.mem_cons_self) hn
        | next i =>
          simp only [step] at e
          rcases hp : s.ops[i]? with _ | p
          · rw [hp] at e; cases e
          · rw [hp] at e
            cases p <;> simp only [Option.some.injEq, reduceCtorEq] at e
            all_goals subst e
            all_goals first
              | (counts hp .r2; simp only [n] at *; omega)
              | (counts hp .r7; simp only [n] at *; omega)
              | (counts hp .done; simp only [n] at *; omega)
              | skip
            all_goals split
            all_goals first
              | (counts hp .r2; simp only [n] at *; omega)
              | (counts hp .r3; simp only [n] at *; omega)
              | (counts hp .r4; simp only [n] at *; omega)
              | (counts hp .r5; simp only [n] at *; omega)
              | (counts hp .r6; simp only [n] at *; omega)
              | (counts hp .r7; simp only [n] at *; omega)
              | (counts hp .w2; simp only [n] at *; omega)
              | (counts hp .w3; simp only [n] at *; omega)
              | (counts hp .w5; simp only [n] at *; omega)
              | (counts hp .w6; simp only [n] at *; omega)
              | (counts hp .done; simp only [n] at *; omega)
        | _ =>
          simp only [step] at e; split at e <;> cases e
          all_goals simp [n, List.count_append] at *
          all_goals assumption

theorem quiet_n {s : St} (hq : quiet s = true) {p : Pc} (hp : p ≠ .done) : n s p = 0 := by
  apply List.count_eq_zero.2
  intro hm
  have := List.all_eq_true.1 hq p hm
  simp at this; exact hp this

theorem run_inv {m : Nat} {P : St → Prop} {Q : St → Act → Prop}
    (hs : ∀ s a s', P s → Q s a → step m s a = some s' → P s') :
    ∀ (as : List Act) (s s' : St), P s → (∀ x ∈ trace m s as, Q x.1 x.2) → run m s as = some s' → P s' := by
  intro as
  induction as with
  | nil => intro s s' hP _ h; cases h; exact hP
  | cons a as ih =>
    intro s s' hP hQ h
    simp only [run] at h
    rcases e : step m s a with _ | s1
    · rw [e] at h; cases h
    · rw [e] at h
      refine ih s1 s' (hs s a s1 hP (hQ (s, a) (by simp [trace])) e) ?_ h
      intro x hx
      exact hQ x (by simp only [trace, e]; exact List.mem_cons_of_mem _ hx)

end Arc
end Salticidae
