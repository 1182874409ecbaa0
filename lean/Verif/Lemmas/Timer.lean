import Verif.Spec.Timer
namespace Salticidae
namespace Timer
open Spec.Timer

theorem run_append (rnd : Rat → Rat) (s : St) (as bs : List Act) :
    run rnd s (as ++ bs) = (run rnd s as).bind fun s' => run rnd s' bs := by
  induction as generalizing s with
  | nil => simp [run]
  | cons a as ih =>
    simp only [List.cons_append, run]
    cases step rnd s a with
    | none => rfl
    | some s' => simpa using ih s'

theorem run_snoc {rnd : Rat → Rat} {s s' : St} {tr : List Act} {a : Act}
    (h : run rnd s (tr ++ [a]) = some s') : ∃ s1, run rnd s tr = some s1 ∧ step rnd s1 a = some s' := by
  rw [run_append] at h
  cases h1 : run rnd s tr with
  | none => rw [h1] at h; cases h
  | some s1 =>
    rw [h1] at h
    refine ⟨s1, rfl, ?_⟩
    simp only [Option.bind_some, run] at h
    cases h2 : step rnd s1 a with
    | none => rw [h2] at h; cases h
    | some s2 => rw [h2] at h; simpa using h

/-- Time that passes in one step. -/
def dt : Act → Nat
  | .clock d => d
  | _ => 0

theorem elapsed_snoc (tr : List Act) (a : Act) : elapsed (tr ++ [a]) = elapsed tr + dt a := by
  induction tr with
  | nil => cases a <;> simp [elapsed, dt]
  | cons b tr ih => cases b <;> simp only [List.cons_append, elapsed, ih] <;> omega

theorem loopClock_snoc (n l : Nat) (tr : List Act) (a : Act) :
    loopClock n l (tr ++ [a]) = (match a with
      | .iter | .woke => (n + elapsed tr) / 1000000
      | _ => loopClock n l tr) := by
  induction tr generalizing n l with
  | nil => cases a <;> simp [loopClock, elapsed]
  | cons b tr ih =>
    cases b <;> simp only [List.cons_append, loopClock, ih, elapsed, Nat.add_assoc]

theorem period_snoc (i : Nat) (tr : List Act) (a : Act) (p : Option Rat) :
    period i (tr ++ [a]) p = (match a with
      | .add j t => if j = i then some t else period i tr p
      | .addFd j _ t => if j = i then some t else period i tr p
      | _ => period i tr p) := by
  induction tr generalizing p with
  | nil => cases a <;> simp [period]
  | cons b tr ih => cases b <;> simp only [List.cons_append, period, ih]

theorem inForce_snoc (i : Nat) (tr : List Act) (a : Act) (p : Bool) :
    inForce i (tr ++ [a]) p = (match a with
      | .add j _ => if j = i then true else inForce i tr p
      | .addFd j _ _ => if j = i then true else inForce i tr p
      | .del j => if j = i then false else inForce i tr p
      | .clear j => if j = i then false else inForce i tr p
      | .fire j => if j = i then false else inForce i tr p
      | _ => inForce i tr p) := by
  induction tr generalizing p with
  | nil => cases a <;> simp [inForce]
  | cons b tr ih => cases b <;> simp only [List.cons_append, inForce, ih]

theorem listening_snoc (i : Nat) (tr : List Act) (a : Act) (p : Nat) :
    listening i (tr ++ [a]) p = (match a with
      | .addFd j ev _ => if j = i then ev else listening i tr p
      | .del j => if j = i then 0 else listening i tr p
      | .clear j => if j = i then 0 else listening i tr p
      | .fire j => if j = i then 0 else listening i tr p
      | .error j => if j = i then 0 else listening i tr p
      | _ => listening i tr p) := by
  induction tr generalizing p with
  | nil => cases a <;> simp [listening]
  | cons b tr ih => cases b <;> simp only [List.cons_append, listening, ih]

/-- The time a timer is due that is started at `l` for `ms`. -/
def cap (n : Nat) : Nat := if n < u64 then n else u64 - 1

/-- A step does not change what it does not touch. -/
theorem step_same {rnd : Rat → Rat} {s s' : St} {a : Act} (h : step rnd s a = some s') (i : Nat)
    (ht : touches i a = false) (o : Obj) (ho : s.objs[i]? = some o) :
    ∃ m, s'.objs[i]? = some { o with mark := m } := by
  cases a <;> simp only [touches, beq_eq_false_iff_ne, ne_eq] at ht <;> simp only [step] at h
  case clock d => split at h <;> cases h; exact ⟨o.mark, ho⟩
  case iter => split at h <;> cases h; exact ⟨o.due.isSome, by simp [ho]⟩
  case wait => split at h <;> cases h; exact ⟨o.mark, ho⟩
  case woke => split at h <;> cases h; exact ⟨o.mark, ho⟩
  case new k =>
    cases h
    refine ⟨o.mark, ?_⟩
    show (s.objs ++ _)[i]? = _
    rw [List.getElem?_append_left (by
      have := List.getElem?_eq_some_iff.mp ho; exact this.1)]
    exact ho
  case avail j => split at h <;> cases h; exact ⟨o.mark, ho⟩
  case add j t =>
    split at h
    · split at h
      · split at h <;> cases h
        · exact ⟨o.mark, by simp only [St.set]; rw [List.getElem?_set_ne ht]; exact ho⟩
        · exact ⟨o.mark, ho⟩
      · cases h
    · cases h
  case addFd j ev t =>
    split at h
    · split at h
      · split at h <;> cases h
        · exact ⟨o.mark, by simp only [St.set]; rw [List.getElem?_set_ne ht]; exact ho⟩
        · exact ⟨o.mark, ho⟩
      · cases h
    · cases h
  case del j =>
    split at h <;> cases h
    exact ⟨o.mark, by simp only [St.set]; rw [List.getElem?_set_ne ht]; exact ho⟩
  case clear j =>
    split at h <;> cases h
    exact ⟨o.mark, by simp only [St.set]; rw [List.getElem?_set_ne ht]; exact ho⟩
  case fire j =>
    split at h
    · split at h
      · split at h <;> cases h
        exact ⟨o.mark, by simp only [St.set]; rw [List.getElem?_set_ne ht]; exact ho⟩
      · cases h
    · cases h
  case ready j ev =>
    split at h
    · split at h <;> cases h
      exact ⟨o.mark, by simp only [St.set]; rw [List.getElem?_set_ne ht]; exact ho⟩
    · cases h
  case error j =>
    split at h
    · split at h <;> cases h
      exact ⟨o.mark, by simp only [St.set]; rw [List.getElem?_set_ne ht]; exact ho⟩
    · cases h

theorem touches_of_restarts {i : Nat} {a : Act} (h : restarts i a = true) : touches i a = true := by
  cases a <;> simp_all [restarts, touches]

theorem waiting_snoc {i : Nat} {tr pre post : List Act} {a b : Act} {t : Rat}
    (h : Waiting i (tr ++ [b]) pre a post t) :
    (post = [] ∧ pre = tr ∧ a = b) ∨ ∃ post', post = post' ++ [b] ∧ Waiting i tr pre a post' t ∧ touches i b = false := by
  rcases List.eq_nil_or_concat post with rfl | ⟨p', b', rfl⟩
  · left
    have := h.split
    rw [show pre ++ [a] = pre ++ [a] from rfl] at this
    have := List.append_inj' this rfl
    simp at this
    exact ⟨rfl, this.1.symm, this.2.symm⟩
  · right
    have hs := h.split
    rw [show pre ++ a :: p'.concat b' = (pre ++ a :: p') ++ [b'] by simp] at hs
    have := List.append_inj' hs rfl
    simp only [List.cons.injEq, and_true] at this
    obtain ⟨h1, rfl⟩ := this
    refine ⟨p', by simp, ⟨h1, h.starts, fun c hc => h.quiet c (by simp [hc]), h.time⟩, h.quiet b (by simp)⟩

theorem waiting_keep {i : Nat} {tr pre post : List Act} {a b : Act} {t : Rat}
    (h : Waiting i tr pre a post t) (hb : touches i b = false) :
    Waiting i (tr ++ [b]) pre a (post ++ [b]) t :=
  ⟨by rw [h.split]; simp, h.starts, fun c hc => by
    simp only [List.mem_append, List.mem_singleton] at hc
    rcases hc with hc | rfl
    · exact h.quiet c hc
    · exact hb, h.time⟩

/-- What is known about an object after a history. -/
structure OInv (rnd : Rat → Rat) (tr : List Act) (i : Nat) (o : Obj) : Prop where
  due : ∀ pre a post t, Waiting i tr pre a post t →
    ∃ ms, toMs rnd t = some ms ∧ o.due = some (cap (loopClock 0 0 pre + ms)) ∧ (o.mark = true ↔ .iter ∈ post)
  wait : o.due.isSome = true → ∃ pre a post t, Waiting i tr pre a post t
  timeout : o.mask ≠ 0 → ∃ t, period i tr none = some t ∧ toMs rnd t = some o.timeout
  plain : o.kind = .timer → o.mask = 0
  mask : o.mask = listening i tr 0
  force : o.due.isSome = true ∨ o.mask ≠ 0 → inForce i tr false = true

structure Inv (rnd : Rat → Rat) (tr : List Act) (s : St) : Prop where
  now : s.now = elapsed tr
  lt : s.lt = loopClock 0 0 tr
  objs : s.undef = false → ∀ i o, s.objs[i]? = some o → OInv rnd tr i o
  none : s.undef = false → ∀ i, s.objs[i]? = none → ∀ b ∈ tr, touches i b = false
  small : s.now < u64 ∧ s.lt * 1000000 ≤ s.now

theorem inv_init (rnd : Rat → Rat) : Inv rnd [] {} :=
  ⟨rfl, rfl, fun _ i o h => by simp at h, fun _ i _ b hb => by simp at hb, by simp [u64]⟩

theorem untouched_folds {i : Nat} {a : Act} (h : touches i a = false) (tr : List Act) :
    period i (tr ++ [a]) none = period i tr none ∧ listening i (tr ++ [a]) 0 = listening i tr 0 ∧
    inForce i (tr ++ [a]) false = inForce i tr false := by
  rw [period_snoc, listening_snoc, inForce_snoc]
  cases a <;> simp_all [touches]

theorem oinv_untouched {rnd : Rat → Rat} {tr : List Act} {i : Nat} {o : Obj} {a : Act} (h : OInv rnd tr i o)
    (ha : touches i a = false) (m : Bool)
    (hm : m = if a = .iter then o.due.isSome else o.mark) : OInv rnd (tr ++ [a]) i { o with mark := m } := by
  obtain ⟨f1, f2, f3⟩ := untouched_folds ha tr
  refine ⟨?_, ?_, ?_, h.plain, by rw [f2]; exact h.mask, by rw [f3]; exact h.force⟩
  · intro pre b post t hw
    rcases waiting_snoc hw with ⟨rfl, rfl, rfl⟩ | ⟨post', rfl, hw', _⟩
    · have := touches_of_restarts hw.starts
      rw [ha] at this; cases this
    · obtain ⟨ms, h1, h2, h3⟩ := h.due _ _ _ _ hw'
      refine ⟨ms, h1, h2, ?_⟩
      subst hm
      by_cases hi : a = .iter
      · simp [hi, h2]
      · have : Act.iter ≠ a := fun e => hi e.symm
        simp [hi, this, h3]
  · intro hd
    obtain ⟨pre, b, post, t, hw⟩ := h.wait hd
    exact ⟨_, _, _, _, waiting_keep hw ha⟩
  · rw [f1]; exact h.timeout

/-- An object that has just been started. -/
theorem oinv_started {rnd : Rat → Rat} {tr : List Act} {i : Nat} {o : Obj} {a : Act} {t : Rat} {ms : Nat}
    (hr : restarts i a = true) (hp : period i (tr ++ [a]) none = some t) (hms : toMs rnd t = some ms)
    (hd : o.due = some (cap (loopClock 0 0 tr + ms))) (hmk : o.mark = false)
    (hmask : o.mask = listening i (tr ++ [a]) 0) (hf : inForce i (tr ++ [a]) false = true)
    (hto : o.mask ≠ 0 → o.timeout = ms) (hk : o.kind = .timer → o.mask = 0) :
    OInv rnd (tr ++ [a]) i o := by
  refine ⟨?_, ?_, ?_, hk, hmask, fun _ => hf⟩
  · intro pre b post t' hw
    rcases waiting_snoc hw with ⟨rfl, rfl, rfl⟩ | ⟨post', rfl, hw', hb⟩
    · have := hw.time
      rw [hp] at this; cases this
      exact ⟨ms, hms, hd, by simp [hmk]⟩
    · have := touches_of_restarts hr
      rw [hb] at this; cases this
  · intro _
    exact ⟨tr, a, [], t, rfl, hr, by simp, hp⟩
  · intro hm
    exact ⟨t, hp, by rw [hms, hto hm]⟩

/-- An object that has just been stopped. -/
theorem oinv_stopped {rnd : Rat → Rat} {tr : List Act} {i : Nat} {o : Obj} {a : Act}
    (hr : restarts i a = false) (ht : touches i a = true) (hd : o.due = none) (hm : o.mask = 0)
    (hl : listening i (tr ++ [a]) 0 = 0) :
    OInv rnd (tr ++ [a]) i o := by
  refine ⟨?_, by simp [hd], by simp [hm], fun _ => hm, by rw [hm, hl], by simp [hd, hm]⟩
  intro pre b post t' hw
  rcases waiting_snoc hw with ⟨rfl, rfl, rfl⟩ | ⟨post', rfl, hw', hb⟩
  · have := hw.starts
    rw [hr] at this; cases this
  · rw [ht] at hb; cases hb

theorem folds_untouched {i : Nat} (tr : List Act) (h : ∀ b ∈ tr, touches i b = false) : listening i tr 0 = 0 := by
  induction tr with
  | nil => rfl
  | cons b tr ih =>
    have hb := h b (by simp)
    have := ih fun c hc => h c (by simp [hc])
    cases b <;> simp_all [listening, touches]

/-- An object that has just been made. -/
theorem oinv_new {rnd : Rat → Rat} {tr : List Act} {i : Nat} {k : Kind} (h : ∀ b ∈ tr, touches i b = false) :
    OInv rnd (tr ++ [.new k]) i { kind := k } := by
  refine ⟨?_, by simp, by simp, fun _ => rfl, ?_, by simp⟩
  · intro pre b post t hw
    have h1 := touches_of_restarts hw.starts
    have : b ∈ tr ++ [.new k] := by rw [hw.split]; simp
    simp only [List.mem_append, List.mem_singleton] at this
    rcases this with hm | rfl
    · rw [h b hm] at h1; cases h1
    · simp [touches] at h1
  · rw [listening_snoc]; exact (folds_untouched tr h).symm

theorem inv_set {rnd : Rat → Rat} {tr : List Act} {s : St} {j : Nat} {o o' : Obj} {a : Act} (h : Inv rnd tr s)
    (ho : s.objs[j]? = some o) (hn : dt a = 0) (hl : loopClock 0 0 (tr ++ [a]) = loopClock 0 0 tr)
    (hi : a ≠ .iter) (ht : ∀ i, i ≠ j → touches i a = false)
    (h' : s.undef = false → OInv rnd (tr ++ [a]) j o') : Inv rnd (tr ++ [a]) (s.set j o') := by
  have hj : j < s.objs.length := (List.getElem?_eq_some_iff.mp ho).1
  refine ⟨by rw [elapsed_snoc, hn]; exact h.now, by rw [hl]; exact h.lt, ?_, ?_, h.small⟩
  · intro hu i p hp
    by_cases e : i = j
    · subst e
      simp only [St.set, List.getElem?_set_self hj, Option.some.injEq] at hp
      subst hp; exact h' hu
    · simp only [St.set] at hp
      rw [List.getElem?_set_ne (fun x => e x.symm)] at hp
      have := oinv_untouched (h.objs hu i p hp) (ht i e) p.mark (by simp [hi])
      exact this
  · intro hu i hp b hb
    simp only [St.set] at hp
    have hij : i ≠ j := by
      rintro rfl
      rw [List.getElem?_set_self hj] at hp; cases hp
    rw [List.getElem?_set_ne (fun x => hij x.symm)] at hp
    simp only [List.mem_append, List.mem_singleton] at hb
    rcases hb with hb | rfl
    · exact h.none hu i hp b hb
    · exact ht i hij

theorem inv_undef {rnd : Rat → Rat} {tr : List Act} {s : St} {a : Act} (h : Inv rnd tr s)
    (hn : dt a = 0) (hl : loopClock 0 0 (tr ++ [a]) = loopClock 0 0 tr) :
    Inv rnd (tr ++ [a]) { s with undef := true } :=
  ⟨by rw [elapsed_snoc, hn]; exact h.now, by rw [hl]; exact h.lt, fun x => by simp at x, fun x => by simp at x, h.small⟩

theorem inv_step {rnd : Rat → Rat} {tr : List Act} {s s' : St} {a : Act} (h : Inv rnd tr s)
    (hs : step rnd s a = some s') : Inv rnd (tr ++ [a]) s' := by
  have hlt := h.lt
  have hnow := h.now
  have same : ∀ (s1 : St), (∀ i, touches i a = false) → s1.objs = s.objs → s1.undef = s.undef → a ≠ .iter →
      (s1.undef = false → ∀ i o, s1.objs[i]? = some o → OInv rnd (tr ++ [a]) i o) ∧
      (s1.undef = false → ∀ i, s1.objs[i]? = none → ∀ b ∈ tr ++ [a], touches i b = false) := by
    intro s1 ht e1 e2 ha
    rw [e1, e2]
    constructor
    · intro hu i o ho
      exact oinv_untouched (h.objs hu i o ho) (ht i) o.mark (by simp [ha])
    · intro hu i ho b hb
      simp only [List.mem_append, List.mem_singleton] at hb
      rcases hb with hb | rfl
      · exact h.none hu i ho b hb
      · exact ht i
  cases a <;> simp only [step] at hs
  case clock d =>
    split at hs <;> cases hs
    rename_i hd
    obtain ⟨g1, g2⟩ := same { s with now := s.now + d } (fun _ => rfl) rfl rfl (by simp)
    exact ⟨by rw [elapsed_snoc, ← h.now]; rfl, by rw [loopClock_snoc]; exact h.lt, g1, g2,
      hd, Nat.le_trans h.small.2 (Nat.le_add_right _ _)⟩
  case iter =>
    split at hs <;> cases hs
    refine ⟨by rw [elapsed_snoc, ← h.now]; rfl, by rw [loopClock_snoc]; simp [h.now], ?_, ?_, h.small.1,
      Nat.div_mul_le_self _ _⟩
    · intro hu i o ho
      simp only [List.getElem?_map, Option.map_eq_some_iff] at ho
      obtain ⟨o1, h1, rfl⟩ := ho
      exact oinv_untouched (h.objs hu i o1 h1) rfl _ (by simp)
    · intro hu i ho b hb
      simp only [List.getElem?_map, Option.map_eq_none_iff] at ho
      simp only [List.mem_append, List.mem_singleton] at hb
      rcases hb with hb | rfl
      · exact h.none hu i ho b hb
      · rfl
  case wait =>
    split at hs <;> cases hs
    obtain ⟨g1, g2⟩ := same { s with phase := .poll } (fun _ => rfl) rfl rfl (by simp)
    exact ⟨by rw [elapsed_snoc, ← h.now]; rfl, by rw [loopClock_snoc]; exact h.lt, g1, g2, h.small⟩
  case woke =>
    split at hs <;> cases hs
    obtain ⟨g1, g2⟩ := same { s with lt := s.now / 1000000 } (fun _ => rfl) rfl rfl (by simp)
    exact ⟨by rw [elapsed_snoc, ← h.now]; rfl, by rw [loopClock_snoc]; simp [h.now], g1, g2, h.small.1,
      Nat.div_mul_le_self _ _⟩
  case avail j =>
    split at hs <;> cases hs
    obtain ⟨g1, g2⟩ := same s (fun _ => rfl) rfl rfl (by simp)
    exact ⟨by rw [elapsed_snoc, ← h.now]; rfl, by rw [loopClock_snoc]; exact h.lt, g1, g2, h.small⟩
  case new k =>
    cases hs
    refine ⟨by rw [elapsed_snoc, ← h.now]; rfl, by rw [loopClock_snoc]; exact h.lt, ?_, ?_, h.small⟩
    · intro hu i o ho
      simp only at ho
      rw [List.getElem?_append] at ho
      split at ho
      · exact oinv_untouched (h.objs hu i o ho) rfl o.mark (by simp)
      · rename_i hge
        have hn : s.objs[i]? = none := List.getElem?_eq_none_iff.mpr (by omega)
        have := h.none hu i hn
        have : o = { kind := k } := by
          rw [List.getElem?_eq_some_iff] at ho
          obtain ⟨hlt', e⟩ := ho
          simp at e
          exact e.symm
        subst this
        exact oinv_new (h.none hu i hn)
    · intro hu i ho b hb
      simp only [List.getElem?_eq_none_iff, List.length_append, List.length_singleton] at ho
      simp only [List.mem_append, List.mem_singleton] at hb
      rcases hb with hb | rfl
      · exact h.none hu i (List.getElem?_eq_none_iff.mpr (by omega)) b hb
      · rfl
  case add j t =>
    split at hs
    · rename_i o ho
      split at hs
      · rename_i hk
        split at hs <;> cases hs
        · rename_i ms hms
          refine inv_set h ho rfl (by rw [loopClock_snoc]) (by simp) (fun i e => by simp [touches]; exact fun x => e x.symm) ?_
          intro hu
          have hv := h.objs hu j o ho
          refine oinv_started (t := t) (ms := ms) (by simp [restarts]) (by rw [period_snoc]; simp) hms
            (by simp [start, cap, hlt]) rfl ?_ (by rw [inForce_snoc]; simp) ?_ hv.plain
          · rw [listening_snoc]; exact hv.mask
          · intro hm; exact absurd (hv.plain hk.1) hm
        · exact inv_undef h rfl (by rw [loopClock_snoc])
      · cases hs
    · cases hs
  case addFd j ev t =>
    split at hs
    · rename_i o ho
      split at hs
      · rename_i hk
        split at hs <;> cases hs
        · rename_i ms hms
          refine inv_set h ho rfl (by rw [loopClock_snoc]) (by simp) (fun i e => by simp [touches]; exact fun x => e x.symm) ?_
          intro hu
          have hv := h.objs hu j o ho
          refine oinv_started (t := t) (ms := ms) (by simp [restarts]) (by rw [period_snoc]; simp) hms
            (by simp [start, cap, hlt]) rfl ?_ (by rw [inForce_snoc]; simp) (fun _ => rfl) ?_
          · rw [listening_snoc]; simp
          · intro hm; simp [start] at hm; rw [hk.1] at hm; cases hm
        · exact inv_undef h rfl (by rw [loopClock_snoc])
      · cases hs
    · cases hs
  case del j =>
    split at hs <;> cases hs
    rename_i o ho
    refine inv_set h ho rfl (by rw [loopClock_snoc]) (by simp) (fun i e => by simp [touches]; exact fun x => e x.symm) fun _ => ?_
    exact oinv_stopped rfl (by simp [touches]) rfl rfl (by rw [listening_snoc]; simp)
  case clear j =>
    split at hs <;> cases hs
    rename_i o ho
    refine inv_set h ho rfl (by rw [loopClock_snoc]) (by simp) (fun i e => by simp [touches]; exact fun x => e x.symm) fun _ => ?_
    exact oinv_stopped rfl (by simp [touches]) rfl rfl (by rw [listening_snoc]; simp)
  case fire j =>
    split at hs
    · rename_i o ho
      split at hs
      · split at hs <;> cases hs
        refine inv_set h ho rfl (by rw [loopClock_snoc]) (by simp) (fun i e => by simp [touches]; exact fun x => e x.symm) fun hu => ?_
        refine oinv_stopped rfl (by simp [touches]) rfl ?_ (by rw [listening_snoc]; simp)
        have := (h.objs hu j o ho).plain
        cases hk : o.kind
        · simp [this hk]
        · simp
      · cases hs
    · cases hs
  case ready j ev =>
    split at hs
    · rename_i o ho
      split at hs <;> cases hs
      rename_i hg
      refine inv_set h ho rfl (by rw [loopClock_snoc]) (by simp) (fun i e => by simp [touches]; exact fun x => e x.symm) fun hu => ?_
      have hv := h.objs hu j o ho
      have hm : o.mask ≠ 0 := by
        intro e; rw [e] at hg; simp at hg; exact hg.2.1 hg.2.2.symm
      obtain ⟨t, h1, h2⟩ := hv.timeout hm
      refine oinv_started (t := t) (ms := o.timeout) (by simp [restarts]) (by rw [period_snoc]; exact h1) h2
        (by simp [start, cap, hlt]) rfl ?_ ?_ (fun _ => rfl) hv.plain
      · rw [listening_snoc]; exact hv.mask
      · rw [inForce_snoc]; exact hv.force (.inr hm)
    · cases hs
  case error j =>
    split at hs
    · rename_i o ho
      split at hs <;> cases hs
      rename_i hg
      refine inv_set h ho rfl (by rw [loopClock_snoc]) (by simp) (fun i e => by simp [touches]; exact fun x => e x.symm) fun hu => ?_
      have hv := h.objs hu j o ho
      obtain ⟨t, h1, h2⟩ := hv.timeout hg.2
      refine oinv_started (t := t) (ms := o.timeout) (by simp [restarts]) (by rw [period_snoc]; exact h1) h2
        (by simp [start, cap, hlt]) rfl ?_ ?_ (fun _ => rfl) (fun _ => rfl)
      · rw [listening_snoc]; simp
      · rw [inForce_snoc]; exact hv.force (.inr hg.2)
    · cases hs

theorem run_inv_from {rnd : Rat → Rat} {s s' : St} {tr as : List Act} (h : Inv rnd tr s) (hr : run rnd s as = some s') :
    Inv rnd (tr ++ as) s' := by
  induction as generalizing s tr with
  | nil => simp [run] at hr; subst hr; simpa using h
  | cons a as ih =>
    simp only [run] at hr
    cases hs : step rnd s a with
    | none => rw [hs] at hr; cases hr
    | some s1 =>
      rw [hs] at hr
      have := ih (inv_step h hs) (by simpa using hr)
      simpa using this

theorem run_inv {rnd : Rat → Rat} {s : St} {tr : List Act} (hr : run rnd {} tr = some s) : Inv rnd tr s := by
  simpa using run_inv_from (inv_init rnd) hr

end Timer
end Salticidae
