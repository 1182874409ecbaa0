import Verif.Spec.NetGone
/-!
C124: invariants of Model/NetGone.
-/
namespace Salticidae
namespace NetGone
open Spec.NetGone

/-- The members of layer l are destroyed only after a stop(). -/
def covered (l : Layer) : List U → Bool
  | [] => true
  | .enter :: _ => true
  | .members l' :: r => l' ≠ l && covered l r
  | _ :: r => covered l r

def isStop : U → Bool
  | .ask _ => true
  | .join _ => true
  | _ => false

/-- Steps of stop(). -/
def plain (u : U) : Prop := isStop u = true ∨ u = .release ∨ u = .enter

/-- A release does not use members that are gone by then. -/
def relOK (l : Layer) : Prop → Layer → List U → Prop
  | _, _, [] => True
  | d, v, .enter :: r => (d → l ∉ v.uses) ∧ relOK l d v r
  | d, v, .release :: r => (d → l ∉ v.uses) ∧ relOK l d v r
  | d, v, .members l' :: r => relOK l (d ∨ l' = l) v r
  | d, _, .vptr v :: r => relOK l d v r
  | d, v, .ask _ :: r => relOK l d v r
  | d, v, .join _ :: r => relOK l d v r
  | d, v, .done :: r => relOK l d v r

structure Inv (k : Kind) (l : Layer) (s : St) : Prop where
  zero : s.sys = 0 → ∀ i, (s.th i).running = false
  one : s.sys = 1 → covered l s.todo = true
  two : 2 ≤ s.sys → ∀ i, (s.th i).running = true → .join i ∈ s.todo.takeWhile isStop
  dead : .gone l ∈ s.log → (∀ i, (s.th i).running = false) ∧ s.sys ≠ 1
  rel : relOK l (.gone l ∈ s.log) s.vt s.todo
  clean : Clean l s.log
  idle : s.destroyed = false → .gone l ∉ s.log ∧ s.vt = k.layer ∧ ∀ u ∈ s.todo, plain u

theorem inv_init (k : Kind) (l : Layer) : Inv k l (init k) where
  zero _ _ := rfl
  one h := by cases h
  two h := by simp [init] at h
  dead h := by cases h
  rel := trivial
  clean a b h := by simp [init] at h
  idle _ := ⟨by simp [init], rfl, fun u h => by cases h⟩

theorem clean_snoc {l : Layer} {log : List Ev} {e : Ev} (h : Clean l log) (he : (∃ t, e = .use t l) → .gone l ∉ log) : Clean l (log ++ [e]) := by
  intro a b hab t ht
  rcases List.eq_nil_or_concat b with rfl | ⟨b', x, rfl⟩
  · cases ht
  · have h1 : log ++ [e] = (a ++ .gone l :: b') ++ [x] := by rw [hab]; simp
    obtain ⟨h2, h3⟩ := List.append_inj' h1 rfl
    cases h3
    simp only [List.concat_eq_append, List.mem_append, List.mem_singleton] at ht
    rcases ht with ht | ht
    · exact h a b' h2 t ht
    · exact he ⟨t, ht.symm⟩ (by rw [h2]; simp)

theorem clean_uses {l : Layer} {v : Layer} : ∀ (us : List Layer) {log : List Ev}, Clean l log → (.gone l ∈ log → l ∉ us) → Clean l (log ++ us.map (.use none)) ∧ (.gone l ∈ log ++ us.map (.use none) ↔ .gone l ∈ log)
  | [], log, h, _ => by simpa using h
  | u :: us, log, h, hn => by
    have h1 := clean_snoc (e := .use none u) h (by
      rintro ⟨t, e⟩ hg; cases e; exact hn hg (by simp))
    have h2 := clean_uses (v := v) us h1 (by
      intro hg hu
      simp only [List.mem_append, List.mem_singleton, reduceCtorEq, or_false] at hg
      exact hn hg (by simp [hu]))
    simp only [List.append_assoc, List.singleton_append, List.map_cons] at h2 ⊢
    refine ⟨h2.1, by simp⟩

theorem relOK_append {l v : Layer} {d : Prop} {r : List U} : ∀ {p : List U}, (∀ u ∈ p, isStop u = true ∨ u = .release) → (d → l ∉ v.uses) → relOK l d v r → relOK l d v (p ++ r)
  | [], _, _, h => h
  | u :: p, hp, hd, h => by
    have ih := relOK_append (p := p) (fun u hu => hp u (by simp [hu])) hd h
    rcases hp u (by simp) with e | rfl
    · cases u
      case ask i => exact ih
      case join i => exact ih
      all_goals cases e
    · exact ⟨hd, ih⟩

theorem stop_mem {n : Nat} : ∀ u ∈ stopSteps n, isStop u = true ∨ u = .release := by
  intro u hu
  simp only [stopSteps, List.mem_append, List.mem_cons, List.mem_map, List.not_mem_nil, or_false] at hu
  rcases hu with (rfl | rfl) | ⟨i, _, rfl⟩ | ⟨i, _, rfl⟩ | rfl <;> simp [isStop]

theorem stop_take {n i : Nat} (h : i < n) (r : List U) : .join i ∈ (stopSteps n ++ r).takeWhile isStop := by
  have e : (stopSteps n ++ r).takeWhile isStop = [.ask 0, .join 0] ++ ((List.range' 1 (n - 1)).map .ask ++ (List.range' 1 (n - 1)).map .join) := by
    simp only [stopSteps, List.append_assoc]
    rw [List.takeWhile_append_of_pos (by simp [isStop]), List.takeWhile_append_of_pos (by simp only [List.mem_map]; rintro a ⟨j, _, rfl⟩; rfl),
      List.takeWhile_append_of_pos (by simp only [List.mem_map]; rintro a ⟨j, _, rfl⟩; rfl)]
    simp [isStop]
  rw [e]
  by_cases h0 : i = 0
  · subst h0; simp
  · simp only [List.mem_append, List.mem_map]
    exact .inr (.inr ⟨i, by rw [List.mem_range'_1]; omega, rfl⟩)

theorem mono_rel {l : Layer} : ∀ {p : List U} {d d' : Prop} {v : Layer}, (d' ↔ d) → relOK l d v p → relOK l d' v p := by
  intro p d d' v h hr
  rwa [propext h]

/-- Threads that exist: only numbers below n run. -/
def Few (n : Nat) (s : St) : Prop := ∀ i, (s.th i).running = true → i < n

theorem few_step {k : Kind} {n : Nat} {s s' : St} {a : Act} (h : Few n s) (hs : step k n s a = some s') : Few n s' := by
  cases a <;> simp only [step, job] at hs
  case go =>
    cases ht : s.todo with
    | nil => rw [ht] at hs; cases hs
    | cons u r =>
      rw [ht] at hs
      cases u <;> simp only [goStep] at hs
      case enter => split at hs <;> (cases hs; exact h)
      case ask i =>
        cases hs
        intro j hj
        simp only [upd] at hj
        split at hj
        · subst_vars; exact h _ hj
        · exact h _ hj
      case join i => split at hs <;> cases hs; exact h
      all_goals (cases hs; exact h)
  all_goals (repeat' split at hs) <;> first | cases hs | skip
  all_goals first | exact h | skip
  all_goals
    intro j hj
    first
      | (simp only [upd] at hj
         split at hj
         · subst_vars
           first | exact h _ hj | cases hj
         · exact h _ hj)
      | (simp only at hj
         split at hj
         · assumption
         · exact h _ hj)

/-- The job of a thread changes. -/
theorem inv_thread {k : Kind} {l : Layer} {s : St} {i : Nat} {x : Thread} (h : Inv k l s) (hx : x.running = (s.th i).running) : Inv k l { s with th := upd s.th i x } := by
  obtain ⟨z, o, t, d, r, c, id⟩ := h
  have hr : ∀ j, (upd s.th i x j).running = (s.th j).running := by
    intro j; simp only [upd]; split
    · subst_vars; exact hx
    · rfl
  exact ⟨fun h j => (hr j).trans (z h j), o, fun h j hj => t h j ((hr j).symm.trans hj), fun hg => ⟨fun j => (hr j).trans ((d hg).1 j), (d hg).2⟩, r, c, id⟩

theorem inv_step {k : Kind} {n : Nat} {l : Layer} {s s' : St} {a : Act} (h : Inv k l s) (hf : Few n s) (hs : step k n s a = some s')
    (ha : a = .destroy → k = .client → l = .top → s.sys ≠ 1) : Inv k l s' := by
  obtain ⟨z, o, t, d, r, c, id⟩ := h
  cases a <;> simp only [step, job] at hs
  case start =>
    by_cases h1 : s.todo = [] ∧ s.destroyed = false <;> simp only [h1, and_self, if_true, if_false] at hs
    rotate_left
    · cases hs
    split at hs <;> cases hs
    · next h2 =>
      refine ⟨fun h => (nomatch h), fun _ => rfl, fun h => absurd h (by simp), fun hg => absurd hg (id h1.2).1, trivial, c, fun _ => ⟨(id h1.2).1, (id h1.2).2.1, fun u hu => (nomatch hu)⟩⟩
    · exact ⟨z, o, t, d, r, c, id⟩
  case stop =>
    split at hs <;> cases hs
    next h1 =>
    refine ⟨z, fun _ => rfl, fun h i hi => ?_, d, ⟨fun hg => absurd hg (id h1.2).1, trivial⟩, c, fun h => ⟨(id h).1, (id h).2.1, fun u hu => ?_⟩⟩
    rotate_left
    · rw [List.mem_singleton] at hu; exact .inr (.inr hu)
    have := t h i hi
    rw [h1.1] at this
    cases this
  case destroy =>
    split at hs <;> cases hs
    next h1 =>
    refine ⟨z, fun h => ?_, fun h i hi => ?_, d, ?_, c, fun h => by cases h⟩
    · cases k <;> cases l <;> first | rfl | exact absurd h (ha rfl rfl rfl)
    · have := t h i hi
      rw [h1.1] at this
      cases this
    · have h2 := (id h1.2)
      simp only [h2.1, h2.2.1]
      cases k <;> cases l <;> simp [dtor, msgDtor, relOK, Kind.layer, Layer.uses]
  case go =>
    cases ht : s.todo with
    | nil => rw [ht] at hs; cases hs
    | cons u q =>
      rw [ht] at hs o t r
      rw [ht] at id
      have id' : s.destroyed = false → .gone l ∉ s.log ∧ s.vt = k.layer ∧ ∀ u ∈ q, plain u := fun h => ⟨(id h).1, (id h).2.1, fun u hu => (id h).2.2 u (by simp [hu])⟩
      cases u <;> simp only [goStep] at hs
      case enter =>
        split at hs
        · next h1 =>
          cases hs
          refine ⟨fun h => (nomatch h), fun h => (nomatch h), fun _ i hi => stop_take (hf i hi) q, fun hg => ⟨(d hg).1, by simp⟩,
            relOK_append stop_mem r.1 r.2, c, fun h => ⟨(id h).1, (id h).2.1, fun u hu => ?_⟩⟩
          rcases List.mem_append.mp hu with hu | hu
          · exact (stop_mem u hu).imp_right .inl
          · exact (id h).2.2 u (by simp [hu])
        · next h1 =>
          cases hs
          refine ⟨z, fun h => absurd h h1, fun h i hi => ?_, d, r.2, c, id'⟩
          have := t h i hi
          simp [isStop] at this
      case ask i =>
        cases hs
        have hr : ∀ j, (upd s.th i { s.th i with asked := true } j).running = (s.th j).running := by
          intro j; simp only [upd]; split
          · subst_vars; rfl
          · rfl
        refine ⟨fun h j => (hr j).trans (z h j), o, fun h j hj => ?_, fun hg => ⟨fun j => (hr j).trans ((d hg).1 j), (d hg).2⟩, r, c, id'⟩
        have := t h j ((hr j).symm.trans hj)
        simpa only [isStop, List.takeWhile_cons, if_true, List.mem_cons, reduceCtorEq, false_or] using this
      case join i =>
        split at hs <;> cases hs
        next h1 =>
        refine ⟨z, o, fun h j hj => ?_, d, r, c, id'⟩
        have := t h j hj
        simp only [isStop, List.takeWhile_cons, if_true, List.mem_cons, U.join.injEq] at this
        rcases this with rfl | this
        · exact absurd hj h1
        · exact this
      case release =>
        cases hs
        obtain ⟨c1, c2⟩ := clean_uses (v := s.vt) s.vt.uses c r.1
        refine ⟨z, o, fun h j hj => ?_, fun hg => d (c2.mp hg), mono_rel c2 r.2, c1, fun h => ⟨fun hg => (id h).1 (c2.mp hg), (id' h).2⟩⟩
        have := t h j hj
        simp [isStop] at this
      case members l' =>
        cases hs
        have e : (.gone l ∈ s.log ++ [.gone l'] ↔ (.gone l ∈ s.log ∨ l' = l)) := by
          simp [eq_comm]
        have hno : l' = l → (∀ i, (s.th i).running = false) ∧ s.sys ≠ 1 := by
          rintro rfl
          have h1 : s.sys ≠ 1 := fun h => by have := o h; simp [covered] at this
          refine ⟨fun i => ?_, h1⟩
          by_cases h0 : s.sys = 0
          · exact z h0 i
          · cases hi : (s.th i).running with
            | false => rfl
            | true =>
              have := t (by omega) i hi
              simp [isStop] at this
        refine ⟨z, fun h => ?_, fun h j hj => ?_, fun hg => (e.mp hg).elim d hno, mono_rel e r, clean_snoc c (by rintro ⟨t, e⟩; cases e), ?_⟩
        · have := o h
          simp only [covered, Bool.and_eq_true] at this
          exact this.2
        · have := t h j hj
          simp [isStop] at this
        · intro h
          have h1 := (id h).2.2 (.members l') (by simp)
          simp [plain, isStop] at h1
      case vptr v =>
        cases hs
        refine ⟨z, o, fun h j hj => ?_, d, r, c, ?_⟩
        · have := t h j hj
          simp [isStop] at this
        · intro h
          have h1 := (id h).2.2 (.vptr v) (by simp)
          simp [plain, isStop] at h1
      case done =>
        cases hs
        have e : (.gone l ∈ s.log ++ [.returned] ↔ .gone l ∈ s.log) := by simp
        refine ⟨z, o, fun h j hj => ?_, fun hg => d (e.mp hg), mono_rel e r, clean_snoc c (by rintro ⟨t, e⟩; cases e), fun h => ⟨fun hg => (id h).1 (e.mp hg), (id' h).2⟩⟩
        have := t h j hj
        simp [isStop] at this
  case virt i =>
    split at hs <;> cases hs
    exact inv_thread ⟨z, o, t, d, r, c, id⟩ rfl
  case direct i =>
    split at hs <;> cases hs
    exact inv_thread ⟨z, o, t, d, r, c, id⟩ rfl
  case use i =>
    split at hs
    · next l' q h1 h2 =>
      cases hs
      have hg : .gone l ∉ s.log := fun hg => by have := (d hg).1 i; rw [h1] at this; cases this
      obtain ⟨z, o, t, d, r, c, id⟩ := inv_thread (i := i) (x := { s.th i with job := q }) ⟨z, o, t, d, r, c, id⟩ rfl
      have e : (.gone l ∈ s.log ++ [.use (some i) l'] ↔ .gone l ∈ s.log) := by simp
      exact ⟨z, o, t, fun hg => d (e.mp hg), mono_rel e r, clean_snoc c (fun _ => hg), fun h => ⟨fun hg => (id h).1 (e.mp hg), (id h).2⟩⟩
    · cases hs
  case exit i =>
    split at hs <;> cases hs
    have hr : ∀ j, (upd s.th i { s.th i with running := false } j).running = true → (s.th j).running = true := by
      intro j; simp only [upd]; split
      · intro h; cases h
      · exact (·)
    have hr' : ∀ j, (s.th j).running = false → (upd s.th i { s.th i with running := false } j).running = false := by
      intro j; simp only [upd]; split
      · intro _; rfl
      · exact (·)
    exact ⟨fun h j => hr' j (z h j), o, fun h j hj => t h j (hr j hj), fun hg => ⟨fun j => hr' j ((d hg).1 j), (d hg).2⟩, r, c, id⟩

theorem few_run {k : Kind} {n : Nat} : ∀ {acts : List Act} {s s' : St}, Few n s → run k n s acts = some s' → Few n s'
  | [], s, s', h, hr => by cases hr; exact h
  | a :: as, s, s', h, hr => by
    simp only [run, Option.bind_eq_some_iff] at hr
    obtain ⟨u, h1, h2⟩ := hr
    exact few_run (few_step h h1) h2

theorem few_init (k : Kind) (n : Nat) : Few n (init k) := fun i h => by cases h

theorem run_append {k : Kind} {n : Nat} {s : St} {as bs : List Act} : run k n s (as ++ bs) = (run k n s as).bind fun u => run k n u bs := by
  induction as generalizing s with
  | nil => rfl
  | cons a as ih =>
    simp only [List.cons_append, run]
    cases step k n s a with
    | none => rfl
    | some u => exact ih

/-- The invariant holds of a history that destroys ClientNetworks, if l is their layer, only when they are not running. -/
theorem inv_run {k : Kind} {n : Nat} {l : Layer} {acts : List Act} {s : St} (h : run k n (init k) acts = some s)
    (ha : ∀ as bs u, acts = as ++ .destroy :: bs → run k n (init k) as = some u → k = .client → l = .top → u.sys ≠ 1) : Inv k l s ∧ Few n s := by
  suffices ∀ (bs as : List Act) (u : St), acts = as ++ bs → run k n (init k) as = some u → Inv k l u → Few n u → run k n u bs = some s → Inv k l s ∧ Few n s from
    this acts [] _ rfl rfl (inv_init k l) (few_init k n) h
  intro bs
  induction bs with
  | nil => intro as u _ _ hi hf hr; cases hr; exact ⟨hi, hf⟩
  | cons a bs ih =>
    intro as u e hu hi hf hr
    simp only [run, Option.bind_eq_some_iff] at hr
    obtain ⟨v, h1, h2⟩ := hr
    refine ih (as ++ [a]) v (by rw [e]; simp) (by rw [run_append, hu]; simp [run, h1]) (inv_step hi hf h1 ?_) (few_step hf h1) h2
    rintro rfl hk hl
    exact ha as bs u e hu hk hl

/-! # The destructor returns -/

/-- Threads are asked to end before they are waited for. -/
def asksFirst (A : Nat → Bool) : List U → Bool
  | [] => true
  | .ask i :: r => asksFirst (fun j => j == i || A j) r
  | .join i :: r => A i && asksFirst A r
  | _ :: r => asksFirst A r

theorem asks_mono {r : List U} : ∀ {A A' : Nat → Bool}, (∀ j, A j = true → A' j = true) → asksFirst A r = true → asksFirst A' r = true := by
  induction r with
  | nil => intros; rfl
  | cons u r ih =>
    intro A A' h ha
    cases u <;> simp only [asksFirst, Bool.and_eq_true] at ha ⊢
    case ask i => exact ih (fun j hj => by simp only [Bool.or_eq_true] at hj ⊢; exact hj.imp_right (h j)) ha
    case join i => exact ⟨h i ha.1, ih h ha.2⟩
    all_goals exact ih h ha

theorem asks_joins {L : List Nat} {r : List U} : ∀ {A : Nat → Bool}, (∀ j ∈ L, A j = true) → asksFirst A r = true → asksFirst A (L.map .join ++ r) = true := by
  induction L with
  | nil => intro A _ h; exact h
  | cons i L ih =>
    intro A h hr
    simp only [List.map_cons, List.cons_append, asksFirst, Bool.and_eq_true]
    exact ⟨h i (by simp), ih (fun j hj => h j (by simp [hj])) hr⟩

theorem asks_asks {M L : List Nat} {r : List U} : ∀ {A : Nat → Bool}, (∀ j ∈ M, A j = true ∨ j ∈ L) → asksFirst A r = true → asksFirst A (L.map .ask ++ (M.map .join ++ r)) = true := by
  induction L with
  | nil => intro A h hr; exact asks_joins (fun j hj => (h j hj).resolve_right (by simp)) hr
  | cons i L ih =>
    intro A h hr
    simp only [List.map_cons, List.cons_append, asksFirst]
    refine ih (fun j hj => ?_) (asks_mono (fun j hj => by simp [hj]) hr)
    rcases h j hj with h | h
    · simp [h]
    · simp only [List.mem_cons] at h
      exact h.imp (fun h => by simp [h]) (·)

theorem asks_stop {n : Nat} {A : Nat → Bool} {r : List U} (h : asksFirst A r = true) : asksFirst A (stopSteps n ++ r) = true := by
  simp only [stopSteps, List.append_assoc, List.cons_append, List.nil_append, asksFirst, BEq.rfl, Bool.true_or, Bool.true_and]
  exact asks_asks (fun j hj => .inr hj) (asks_mono (fun j hj => by simp [hj]) h)

def ended (s : St) (j : Nat) : Bool := (s.th j).asked || !(s.th j).running

structure Ends (s : St) : Prop where
  asks : asksFirst (ended s) s.todo = true
  last : s.destroyed = true → .done ∈ s.todo ∨ .returned ∈ s.log

theorem ended_upd {s : St} {i : Nat} (x : Thread) (h : ended s i = true → (x.asked || !x.running) = true) (t : List U) (l : List Ev) :
    ∀ j, ended s j = true → ended { s with th := upd s.th i x, todo := t, log := l } j = true := by
  intro j hj
  simp only [ended, upd]
  split
  · subst_vars; exact h hj
  · exact hj

theorem ends_step {k : Kind} {n : Nat} {s s' : St} {a : Act} (h : Ends s) (hs : step k n s a = some s') : Ends s' := by
  obtain ⟨a1, a2⟩ := h
  cases a <;> simp only [step, job] at hs
  case start =>
    by_cases h1 : s.todo = [] ∧ s.destroyed = false <;> simp only [h1, and_self, if_true, if_false] at hs
    rotate_left
    · cases hs
    split at hs <;> cases hs
    · exact ⟨rfl, fun h => (nomatch h)⟩
    · exact ⟨a1, a2⟩
  case stop =>
    split at hs <;> cases hs
    next h1 => exact ⟨rfl, fun h => by rw [h1.2] at h; cases h⟩
  case destroy =>
    split at hs <;> cases hs
    exact ⟨by cases k <;> rfl, fun _ => .inl (by cases k <;> simp [dtor, msgDtor])⟩
  case go =>
    cases ht : s.todo with
    | nil => rw [ht] at hs; cases hs
    | cons u q =>
      rw [ht] at hs a1 a2
      cases u <;> simp only [goStep] at hs
      case enter =>
        split at hs <;> cases hs
        · exact ⟨asks_stop a1, fun h => (a2 h).imp_left (fun h => by simp at h; simp [h])⟩
        · exact ⟨a1, fun h => (a2 h).imp_left (fun h => by simpa using h)⟩
      case ask i =>
        cases hs
        refine ⟨asks_mono (A := fun j => j == i || ended s j) (fun j hj => ?_) a1, fun h => (a2 h).imp_left (fun h => by simpa using h)⟩
        simp only [ended, upd]
        split
        · rfl
        · next h => simpa [h, ended] using hj
      case join i =>
        split at hs <;> cases hs
        simp only [asksFirst, Bool.and_eq_true] at a1
        exact ⟨a1.2, fun h => (a2 h).imp_left (fun h => by simpa using h)⟩
      case done => cases hs; exact ⟨a1, fun h => .inr (by simp)⟩
      all_goals
        cases hs
        exact ⟨a1, fun h => (a2 h).imp (fun h => by simpa using h) (fun h => by simp [h])⟩
  case virt i =>
    split at hs <;> cases hs
    exact ⟨asks_mono (by refine ended_upd _ ?_ _ _; exact fun h => h) a1, a2⟩
  case direct i =>
    split at hs <;> cases hs
    exact ⟨asks_mono (by refine ended_upd _ ?_ _ _; exact fun h => h) a1, a2⟩
  case use i =>
    split at hs <;> cases hs
    exact ⟨asks_mono (by refine ended_upd _ ?_ _ _; exact fun h => h) a1, fun h => (a2 h).imp_right (fun h => by simp [h])⟩
  case exit i =>
    split at hs <;> cases hs
    exact ⟨asks_mono (ended_upd _ (fun _ => by simp) _ _) a1, a2⟩

theorem ends_init (k : Kind) : Ends (init k) := ⟨rfl, fun h => (nomatch h)⟩

theorem ends_run {k : Kind} {n : Nat} : ∀ {acts : List Act} {s s' : St}, Ends s → run k n s acts = some s' → Ends s'
  | [], s, s', h, hr => by cases hr; exact h
  | a :: as, s, s', h, hr => by
    simp only [run, Option.bind_eq_some_iff] at hr
    obtain ⟨u, h1, h2⟩ := hr
    exact ends_run (ends_step h h1) h2

/-- A thread that was asked to end does. -/
theorem finish {k : Kind} {n i : Nat} : ∀ (q : List Layer) {s : St}, (s.th i).job = q → (s.th i).running = true → (s.th i).asked = true →
    ∃ acts s', NoNewJob acts ∧ run k n s acts = some s' ∧ (s'.th i).running = false ∧ s'.todo = s.todo ∧ s'.sys = s.sys
  | [], s, h1, h2, h3 => by
    exact ⟨[.exit i], { s with th := upd s.th i { s.th i with running := false } }, fun j => by simp, by simp [run, step, h1, h2, h3], by simp [upd], rfl, rfl⟩
  | l :: q, s, h1, h2, h3 => by
    let s1 : St := { s with th := upd s.th i { s.th i with job := q }, log := s.log ++ [.use (some i) l] }
    have e : step k n s (.use i) = some s1 := by simp [step, h1, h2, s1]
    obtain ⟨acts, s', g1, g2, g3⟩ := finish (k := k) (n := n) (i := i) q (s := s1) (by simp [s1, upd]) (by simpa [s1, upd] using h2) (by simpa [s1, upd] using h3)
    refine ⟨.use i :: acts, s', fun j => ⟨?_, ?_⟩, by simp only [run, e]; exact g2, g3⟩
    · simpa using (g1 j).1
    · simpa using (g1 j).2

theorem noNewJob_append {as bs : List Act} (h1 : NoNewJob as) (h2 : NoNewJob bs) : NoNewJob (as ++ bs) := by
  intro j
  simp only [List.mem_append, not_or]
  exact ⟨⟨(h1 j).1, (h2 j).1⟩, ⟨(h1 j).2, (h2 j).2⟩⟩

theorem noNewJob_go : NoNewJob [.go] := fun j => by simp

/-- The program's thread gets on with its next step. -/
theorem forward {k : Kind} {n : Nat} {s : St} {u : U} {r : List U} (he : Ends s) (ht : s.todo = u :: r) :
    ∃ acts s', NoNewJob acts ∧ run k n s acts = some s' ∧ Ends s' ∧ ((s'.todo = r ∧ s'.sys = s.sys) ∨ (s.sys = 1 ∧ s'.sys = 2)) := by
  have key : ∀ (s : St), Ends s → s.todo = u :: r → (∀ i, u = .join i → (s.th i).running = false) →
      ∃ s', run k n s [.go] = some s' ∧ Ends s' ∧ ((s'.todo = r ∧ s'.sys = s.sys) ∨ (s.sys = 1 ∧ s'.sys = 2)) := by
    clear ht he s
    intro s he ht hj
    have : ∃ s', step k n s .go = some s' ∧ ((s'.todo = r ∧ s'.sys = s.sys) ∨ (s.sys = 1 ∧ s'.sys = 2)) := by
      simp only [step, ht]
      clear ht
      cases u <;> simp only [goStep]
      case enter =>
        split
        · next h => exact ⟨_, rfl, .inr ⟨h, rfl⟩⟩
        · exact ⟨_, rfl, .inl ⟨rfl, rfl⟩⟩
      case join i =>
        rw [if_neg (by rw [hj i rfl]; simp)]
        exact ⟨_, rfl, .inl ⟨rfl, rfl⟩⟩
      all_goals exact ⟨_, rfl, .inl ⟨rfl, rfl⟩⟩
    obtain ⟨s', h1, h2⟩ := this
    exact ⟨s', by simp [run, h1], ends_step he h1, h2⟩
  by_cases hj : ∃ i, u = .join i ∧ (s.th i).running = true
  · obtain ⟨i, rfl, hr⟩ := hj
    have ha := he.asks
    rw [ht] at ha
    simp only [asksFirst, Bool.and_eq_true, ended, hr, Bool.not_true, Bool.or_false] at ha
    obtain ⟨as, s1, g1, g2, g3, g4, g5⟩ := finish (k := k) (n := n) _ rfl hr ha.1
    obtain ⟨s', h1, h2, h3⟩ := key _ (ends_run he g2) (g4.trans ht) (fun j e => by cases e; exact g3)
    exact ⟨as ++ [.go], s', noNewJob_append g1 noNewJob_go, by rw [run_append, g2]; exact h1, h2, by rw [g5] at h3; exact h3⟩
  · obtain ⟨s', h1, h2, h3⟩ := key _ he ht (fun i e => by
      cases hr : (s.th i).running with
      | false => rfl
      | true => exact absurd ⟨i, e, hr⟩ hj)
    exact ⟨[.go], s', noNewJob_go, h1, h2, h3⟩

theorem returns_stopped {k : Kind} {n : Nat} : ∀ (t : List U) {s : St}, s.todo = t → Ends s → s.sys ≠ 1 → ∃ acts s', NoNewJob acts ∧ run k n s acts = some s' ∧ Ends s' ∧ s'.todo = []
  | [], s, ht, he, _ => ⟨[], s, fun j => by simp, rfl, he, ht⟩
  | u :: r, s, ht, he, hs => by
    obtain ⟨as, s1, g1, g2, g3, g4⟩ := forward (k := k) (n := n) he ht
    rcases g4 with ⟨g4, g5⟩ | ⟨g4, _⟩
    · obtain ⟨bs, s', h1, h2, h3⟩ := returns_stopped (k := k) (n := n) r g4 g3 (by rw [g5]; exact hs)
      exact ⟨as ++ bs, s', noNewJob_append g1 h1, by rw [run_append, g2]; exact h2, h3⟩
    · exact absurd g4 hs

theorem returns {k : Kind} {n : Nat} : ∀ (t : List U) {s : St}, s.todo = t → Ends s → ∃ acts s', NoNewJob acts ∧ run k n s acts = some s' ∧ Ends s' ∧ s'.todo = []
  | [], s, ht, he => ⟨[], s, fun j => by simp, rfl, he, ht⟩
  | u :: r, s, ht, he => by
    obtain ⟨as, s1, g1, g2, g3, g4⟩ := forward (k := k) (n := n) he ht
    have : ∃ bs s', NoNewJob bs ∧ run k n s1 bs = some s' ∧ Ends s' ∧ s'.todo = [] := by
      rcases g4 with ⟨g4, _⟩ | ⟨_, g5⟩
      · exact returns r g4 g3
      · exact returns_stopped _ rfl g3 (by omega)
    obtain ⟨bs, s', h1, h2, h3⟩ := this
    exact ⟨as ++ bs, s', noNewJob_append g1 h1, by rw [run_append, g2]; exact h2, h3⟩

/-- The destructor returns after the members of ConnPool were destroyed. -/
def poolFirst (g : Prop) : List U → Prop
  | [] => True
  | .members .pool :: r => poolFirst True r
  | .done :: r => g ∧ poolFirst g r
  | _ :: r => poolFirst g r

theorem poolFirst_mono {g g' : Prop} (h : g → g') : ∀ {r : List U}, poolFirst g r → poolFirst g' r
  | [], _ => trivial
  | u :: r, hr => by
    cases u
    case members l =>
      cases l
      · exact hr
      · exact poolFirst_mono (r := r) h hr
      · exact poolFirst_mono (r := r) h hr
    case done => exact ⟨h hr.1, poolFirst_mono (r := r) h hr.2⟩
    all_goals exact poolFirst_mono (r := r) h hr

theorem poolFirst_stop {g : Prop} {r : List U} (h : poolFirst g r) : ∀ {p : List U}, (∀ u ∈ p, isStop u = true ∨ u = .release) → poolFirst g (p ++ r)
  | [], _ => h
  | u :: p, hp => by
    have ih := poolFirst_stop h (p := p) (fun u hu => hp u (by simp [hu]))
    rcases hp u (by simp) with e | rfl
    · cases u <;> first | exact ih | (simp [isStop] at e)
    · exact ih

structure Last (s : St) : Prop where
  todo : poolFirst (.gone .pool ∈ s.log) s.todo
  log : .returned ∈ s.log → .gone .pool ∈ s.log

theorem last_step {k : Kind} {n : Nat} {s s' : St} {a : Act} (h : Last s) (hs : step k n s a = some s') : Last s' := by
  obtain ⟨a1, a2⟩ := h
  cases a <;> simp only [step, job] at hs
  case start =>
    by_cases h1 : s.todo = [] ∧ s.destroyed = false <;> simp only [h1, and_self, if_true, if_false] at hs
    · split at hs <;> cases hs
      · exact ⟨trivial, a2⟩
      · exact ⟨a1, a2⟩
    · cases hs
  case stop => split at hs <;> cases hs; exact ⟨trivial, a2⟩
  case destroy => split at hs <;> cases hs; exact ⟨by cases k <;> simp [dtor, msgDtor, poolFirst], a2⟩
  case go =>
    cases ht : s.todo with
    | nil => rw [ht] at hs; cases hs
    | cons u q =>
      rw [ht] at hs a1
      cases u <;> simp only [goStep] at hs
      case enter =>
        split at hs <;> cases hs
        · exact ⟨poolFirst_stop (show poolFirst _ q from a1) stop_mem, a2⟩
        · exact ⟨a1, a2⟩
      case join i => split at hs <;> cases hs; exact ⟨a1, a2⟩
      case members l =>
        cases hs
        refine ⟨?_, fun h => by simp at h; simp [a2 h]⟩
        cases l
        · exact poolFirst_mono (fun _ => by simp) (show poolFirst True q from a1)
        · exact poolFirst_mono (fun h => by simp [h]) (show poolFirst _ q from a1)
        · exact poolFirst_mono (fun h => by simp [h]) (show poolFirst _ q from a1)
      case release => cases hs; exact ⟨poolFirst_mono (fun h => by simp [h]) (show poolFirst _ q from a1), fun h => by simp at h; simp [a2 h]⟩
      case done => cases hs; exact ⟨poolFirst_mono (fun h => by simp [h]) a1.2, fun _ => by simp [a1.1]⟩
      all_goals (cases hs; exact ⟨a1, a2⟩)
  case use i =>
    split at hs <;> cases hs
    exact ⟨poolFirst_mono (fun h => by simp [h]) a1, fun h => by simp at h; simp [a2 h]⟩
  all_goals (split at hs <;> cases hs; exact ⟨a1, a2⟩)

theorem last_run {k : Kind} {n : Nat} : ∀ {acts : List Act} {s s' : St}, Last s → run k n s acts = some s' → Last s'
  | [], s, s', h, hr => by cases hr; exact h
  | a :: as, s, s', h, hr => by
    simp only [run, Option.bind_eq_some_iff] at hr
    obtain ⟨u, h1, h2⟩ := hr
    exact last_run (last_step h h1) h2

theorem last_init (k : Kind) : Last (init k) := ⟨trivial, fun h => (nomatch h)⟩

end NetGone
end Salticidae
