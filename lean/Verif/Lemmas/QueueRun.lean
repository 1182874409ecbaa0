import Verif.Lemmas.QueueStep
/-!
The invariant holds in every history.
-/
namespace Salticidae
namespace Queue
open FreeList (upd upd_apply upd_self upd_other)

variable {α : Type} [DecidableEq α]

/-- A thread that is in no operation of the queue is in none of the free list. -/
def IdleFl (s : St α) : Prop := ∀ i x, s.pc i = .idle x → ∃ r, s.fl.pc i = .ret r

theorem micro_other {s s' : FreeList.St} {i j : Nat} {ch : Bool} (h : FreeList.micro s i ch = some s') (hj : j ≠ i) : s'.pc j = s.pc j := by
  simp only [FreeList.micro] at h
  split at h <;> (try (cases h)) <;> simp only [FreeList.release, FreeList.St.setPc, FreeList.St.setCnt, FreeList.St.addHolder, FreeList.St.setFreed, FreeList.St.setNext,
    FreeList.St.setPhase, FreeList.St.delHolder] <;> (repeat' split) <;> simp [upd_apply, hj]

theorem call_other (s : FreeList.St) (i j : Nat) (op : FreeList.Op) (hj : j ≠ i) : (FreeList.call s i op).pc j = s.pc j := by
  cases op <;> simp only [FreeList.call, FreeList.St.setPc, FreeList.St.setPhase] <;> (try split) <;> simp [upd_apply, hj]

theorem local_pc {B : Nat} {s s' : St α} {i : Nat} {ch : Bool} {r : FreeList.Res} (h : localStep B s i ch r = some s') :
    ∀ j, j ≠ i → s'.pc j = s.pc j ∧ s'.fl.pc j = s.fl.pc j := by
  intro j hj
  simp only [localStep] at h
  cases hp : s.pc i <;>
    simp only [hp, enqStep, deqStep, rewStep, mpmcStep, addStep, Option.none_or, Option.or_none, Option.some_or, gotBlk] at h
  all_goals (repeat' split at h)
  all_goals first
    | (cases h; done)
    | (cases h
       simp only [St.ret, St.setPc, St.rcd, St.setBlk, St.setStat, St.call, FreeList.St.setFreed, call_other _ _ _ _ hj]
       simp [upd_apply, hj])

theorem local_idle {B : Nat} {s s' : St α} {i : Nat} {ch : Bool} {r : FreeList.Res} (h : localStep B s i ch r = some s') (hf : s.fl.pc i = .ret r)
    {x : Ret α} (hx : s'.pc i = .idle x) : s'.fl.pc i = .ret r := by
  simp only [localStep] at h
  cases hp : s.pc i <;>
    simp only [hp, enqStep, deqStep, rewStep, mpmcStep, addStep, Option.none_or, Option.or_none, Option.some_or, gotBlk] at h
  all_goals (repeat' split at h)
  all_goals first
    | (cases h; done)
    | (cases h
       simp only [St.ret, St.setPc, St.rcd, St.setBlk, St.setStat, St.call, upd_self] at hx ⊢
       first | (cases hx; done) | exact hf | (split at hx <;> cases hx))

theorem idle_step {B : Nat} {s s' : St α} {a : Act α} (k : IdleFl s) (h : step B s a = some s') : IdleFl s' := by
  intro j x hj
  cases a with
  | start i c =>
    simp only [step] at h
    split at h
    · rename_i y hy
      cases h
      simp only [St.setPc, St.rcd, upd_apply] at hj ⊢
      split at hj
      · cases c <;> cases hj
      · exact k j x hj
    · cases h
  | go i ch =>
    simp only [step] at h
    split at h
    · rename_i r hr
      by_cases hij : j = i
      · subst hij; exact ⟨r, local_idle h hr hj⟩
      · have := local_pc h j hij
        rw [this.1] at hj; rw [this.2]
        exact k j x hj
    · rename_i hr
      simp only [Option.map_eq_some_iff] at h
      obtain ⟨fl, h1, h2⟩ := h
      subst h2
      have hj' : s.pc j = .idle x := hj
      obtain ⟨r, h3⟩ := k j x hj'
      by_cases hij : j = i
      · subst hij; exact absurd h3 (hr r)
      · exact ⟨r, by rw [← h3]; exact micro_other h1 hij⟩

theorem inv_step {B : Nat} {m : Mode} {s s' : St α} {a : Act α} (hB : 0 < B) (k : Inv B m s) (ki : IdleFl s) (h : step B s a = some s')
    (ha : a.allowed m) (hT : timelyAt s a) (hF : m = .multi → freshAt s a) : Inv B m s' := by
  cases a with
  | start i c =>
    simp only [step] at h
    split at h
    · rename_i y hy
      cases h
      obtain ⟨r, hr⟩ := ki i y hy
      refine inv_ev k hr ⟨by cases c <;> rfl, by rw [hy]; rfl⟩ (by rw [hy]; cases c <;> rfl) (by rw [hy]; cases c <;> rfl) (by cases c <;> first | exact ha | trivial)
        (by rw [hy]; cases c <;> rfl) (by cases c <;> trivial) ?_
      intro q _ hd
      rw [hy] at hd
      have hd : q.doing i = .nothing := hd
      refine ⟨q.set i (.called c), by simp [Spec.Queue.after, hd], rfl, ?_, fun j hj => by simp [Spec.Queue.Q.set, hj]⟩
      simp only [Spec.Queue.Q.set, if_true]
      cases c <;> rfl
    · cases h
  | go i ch =>
    simp only [step] at h
    split at h
    · rename_i r hr
      exact local_ok hB k hr h
    · rename_i hr
      simp only [Option.map_eq_some_iff] at h
      obtain ⟨fl, h1, h2⟩ := h
      subst h2
      refine inv_micro k h1 (fun u hu => hT u hu) ?_
      intro u n h3 h4 h5 h6
      have hm := k.role i
      rw [h4] at hm
      exact hF hm u n h3 h4 h5 h6

theorem inv_init (B : Nat) (m : Mode) : Inv B m (init α) := by
  have hfl : FreeList.Inv { FreeList.init with alloc := 1 } := by
    refine ⟨?_, ?_, ?_, ?_, ?_, ?_, ?_, ?_, ?_, ?_, ?_, ?_, ?_, ?_⟩ <;>
      simp [FreeList.init, FreeList.Phase.base, FreeList.Pc.holds, FreeList.Pc.leaves, FreeList.Pc.puts, FreeList.Pc.enters, FreeList.Pc.knows, FreeList.Chain, FreeList.Pc.ptr, FreeList.Pc.sane]
  refine { toGlob := ⟨hfl, rfl, rfl, ?_, ?_, ?_, ?_, ?_, ?_, ?_, ?_, ?_, ?_, ?_, ?_, ?_, ?_, ?_, ?_, ?_⟩, qt2 := ?_, lk := ?_, rd := ?_, wr := ?_, role := ?_, flp := ?_, held := ?_, loc := ?_, leg := ⟨Spec.Queue.empty, rfl, rfl, fun _ => rfl⟩ }
  all_goals simp [init, FreeList.init, Linked, Live, Pc.links, Pc.reads, Pc.writes, Pc.role, heldOf, Pc.wants, Pc.refs, Loc]
  all_goals (try omega)

theorem idle_init : IdleFl (init α) := fun _ _ _ => ⟨.none, rfl⟩

theorem inv_run {B : Nat} {m : Mode} (hB : 0 < B) : ∀ {acts : List (Act α)} {s s' : St α}, Inv B m s → IdleFl s → run B s acts = some s' →
    (∀ a ∈ acts, a.allowed m) → (∀ p ∈ trace B s acts, timelyAt p.1 p.2) → (m = .multi → ∀ p ∈ trace B s acts, freshAt p.1 p.2) → Inv B m s' ∧ IdleFl s'
  | [], s, s', k, ki, h, _, _, _ => by cases h; exact ⟨k, ki⟩
  | a :: as, s, s', k, ki, h, ha, hT, hF => by
    simp only [run, Option.bind_eq_some_iff] at h
    obtain ⟨s1, h1, h2⟩ := h
    simp only [trace, h1, List.mem_cons] at hT hF
    exact inv_run hB (inv_step hB k ki h1 (ha a (by simp)) (hT _ (.inl rfl)) (fun hm => hF hm _ (.inl rfl))) (idle_step ki h1) h2
      (fun x hx => ha x (by simp [hx])) (fun p hp => hT p (.inr hp)) (fun hm p hp => hF hm p (.inr hp))

/-- A thread in an unbounded enqueue. -/
def Pc.unb : Pc α → Bool
  | .e1 _ u | .e2 _ u _ | .e5 _ u _ | .e6 _ u _ | .e7 _ u _ | .e8 _ u _ _ | .e9 _ u _ _ | .e10 _ u _ _ | .e11 _ u _ _ | .e12 _ u _ _ | .e13 _ u _ _
  | .e14 _ u _ | .eR _ u | .e15 _ u _ _ | .e16 _ u _ _ | .e17 _ u _ _ => u
  | _ => false

/-- A thread in an enqueue. -/
def Pc.prod : Pc α → Bool
  | .e1 _ _ | .e2 _ _ _ | .e5 _ _ _ | .e6 _ _ _ | .e7 _ _ _ | .e8 _ _ _ _ | .e9 _ _ _ _ | .e10 _ _ _ _ | .e11 _ _ _ _ | .e12 _ _ _ _ | .e13 _ _ _ _
  | .e14 _ _ _ | .eR _ _ | .e15 _ _ _ _ | .e16 _ _ _ _ | .e17 _ _ _ _ | .e18 _ => true
  | _ => false

theorem local_unb {B : Nat} {s s' : St α} {i : Nat} {ch : Bool} {r : FreeList.Res} (h : localStep B s i ch r = some s')
    (hx : (s.pc i).unb = false) : (s'.pc i).unb = false := by
  simp only [localStep] at h
  cases hp : s.pc i <;> rw [hp] at hx <;>
    simp only [hp, enqStep, deqStep, rewStep, mpmcStep, addStep, Option.none_or, Option.or_none, Option.some_or, gotBlk] at h
  all_goals (repeat' split at h)
  all_goals first
    | (cases h; done)
    | (cases h
       simp only [St.ret, St.setPc, St.rcd, St.setBlk, St.setStat, St.call, upd_self]
       first | rfl | exact hx | (split <;> first | rfl | exact hx))

theorem local_prod {B : Nat} {s s' : St α} {i : Nat} {ch : Bool} {r : FreeList.Res} (h : localStep B s i ch r = some s')
    (hx : (s.pc i).prod = false) : (s'.pc i).prod = false := by
  simp only [localStep] at h
  cases hp : s.pc i <;> rw [hp] at hx <;>
    simp only [hp, enqStep, deqStep, rewStep, mpmcStep, addStep, Option.none_or, Option.or_none, Option.some_or, gotBlk] at h
  all_goals (repeat' split at h)
  all_goals first
    | (cases h; done)
    | (cases hx; done)
    | (cases h
       simp only [St.ret, St.setPc, St.rcd, St.setBlk, St.setStat, St.call, upd_self]
       first | rfl | exact hx | (split <;> first | rfl | exact hx))

theorem unb_step {B : Nat} {s s' : St α} {a : Act α} (k : ∀ j, (s.pc j).unb = false) (h : step B s a = some s') (ha : ∀ i e, a ≠ .start i (.enq e true)) :
    ∀ j, (s'.pc j).unb = false := by
  intro j
  cases a with
  | start i c =>
    simp only [step] at h
    split at h
    · cases h
      simp only [St.setPc, St.rcd, upd_apply]
      split
      · cases c with
        | enq e u => cases u with
          | true => exact absurd rfl (ha i e)
          | false => rfl
        | _ => rfl
      · exact k j
    · cases h
  | go i ch =>
    simp only [step] at h
    split at h
    · rename_i r hr
      by_cases hij : j = i
      · subst hij; exact local_unb h (k j)
      · rw [(local_pc h j hij).1]; exact k j
    · simp only [Option.map_eq_some_iff] at h
      obtain ⟨fl, h1, h2⟩ := h
      subst h2
      exact k j

/-- With bounded enqueues only, marks are cleared in time. -/
theorem timely_bounded {B : Nat} : ∀ {acts : List (Act α)} {s : St α}, (∀ j, (s.pc j).unb = false) → (∀ a ∈ acts, ∀ i e, a ≠ .start i (.enq e true)) →
    ∀ p ∈ trace B s acts, timelyAt p.1 p.2
  | [], _, _, _ => by intro p hp; cases hp
  | a :: as, s, k, ha => by
    intro p hp
    simp only [trace, List.mem_cons] at hp
    rcases hp with hp | hp
    · subst hp
      cases a with
      | start => trivial
      | go i ch =>
        intro u _ j e t hx
        have := k j
        rw [hx] at this; cases this
    · split at hp
      · rename_i s1 h1
        exact timely_bounded (unb_step k h1 (ha a (by simp))) (fun x hx => ha x (by simp [hx])) p hp
      · cases hp

/-- Only thread p enqueues. -/
structure Sole (p : Nat) (s : St α) : Prop where
  only : ∀ j, (s.pc j).prod = true → j = p
  e13 : ∀ e u t n, s.pc p = .e13 e u t n → s.stat n = .chain ∧ (s.blk n).tail = 0

/-- What a step of a thread that is not enqueueing does to an empty block in the queue. -/
theorem local_empty {B : Nat} {m : Mode} {s s' : St α} {i : Nat} {ch : Bool} {r : FreeList.Res} (hB : 0 < B) (k : Inv B m s) (h : localStep B s i ch r = some s')
    (hx : (s.pc i).prod = false) {n : Nat} (h1 : s.stat n = .chain) (h2 : (s.blk n).tail = 0) : s'.stat n = .chain ∧ (s'.blk n).tail = 0 := by
  have hl := k.loc i
  have hal := alloc_of k (u := n) (by rw [h1]; simp)
  simp only [localStep] at h
  cases hp : s.pc i <;> rw [hp] at hx hl <;>
    simp only [hp, enqStep, deqStep, rewStep, mpmcStep, addStep, Option.none_or, Option.or_none, Option.some_or, gotBlk] at h
  all_goals (repeat' split at h)
  all_goals first
    | (cases h; done)
    | (cases hx; done)
    | (cases h
       simp only [St.ret, St.setPc, St.rcd, St.setBlk, St.setStat, St.call, upd_apply, Loc] at hl ⊢
       grind)

theorem sole_step {B : Nat} {m : Mode} {s s' : St α} {a : Act α} {p : Nat} (hB : 0 < B) (k : Inv B m s) (ks : Sole p s) (h : step B s a = some s')
    (ha : ∀ i e u, a = .start i (.enq e u) → i = p) : Sole p s' := by
  cases a with
  | start i c =>
    simp only [step] at h
    split at h
    · cases h
      refine ⟨fun j hj => ?_, fun e u t n hj => ?_⟩
      · simp only [St.setPc, St.rcd, upd_apply] at hj
        split at hj
        · rename_i hij
          cases c with
          | enq e u => rw [hij]; exact ha i e u rfl
          | _ => cases hj
        · exact ks.only j hj
      · simp only [St.setPc, St.rcd, upd_apply] at hj
        split at hj
        · cases c <;> cases hj
        · exact ks.e13 e u t n hj
    · cases h
  | go i ch =>
    simp only [step] at h
    split at h
    · rename_i r hr
      refine ⟨fun j hj => ?_, fun e u t n hj => ?_⟩
      · by_cases hij : j = i
        · subst hij
          cases hx : (s.pc j).prod with
          | true => exact ks.only j hx
          | false => rw [local_prod h hx] at hj; cases hj
        · rw [(local_pc h j hij).1] at hj; exact ks.only j hj
      · by_cases hij : p = i
        · subst hij
          simp only [localStep] at h
          cases hp : s.pc p <;>
            simp only [hp, enqStep, deqStep, rewStep, mpmcStep, addStep, Option.none_or, Option.or_none, Option.some_or, gotBlk] at h
          case e12 e' u' t' n' =>
            cases h
            simp only [St.setPc, upd_self] at hj
            cases hj
            have hl := k.loc p
            rw [hp] at hl
            have := k.hid n p hl.1
            exact ⟨this.1, this.2.1⟩
          all_goals (repeat' split at h)
          all_goals first
            | (cases h; done)
            | (cases h
               simp only [St.ret, St.setPc, St.rcd, St.setBlk, St.setStat, St.call, upd_self] at hj
               first | (cases hj; done) | (split at hj <;> cases hj))
        · have hpp := (local_pc h p hij).1
          rw [hpp] at hj
          have := ks.e13 e u t n hj
          refine local_empty hB k h ?_ this.1 this.2
          cases hx : (s.pc i).prod with
          | false => rfl
          | true => exact absurd (ks.only i hx).symm hij
    · simp only [Option.map_eq_some_iff] at h
      obtain ⟨fl, h1, h2⟩ := h
      subst h2
      refine ⟨ks.only, fun e u t n hj => ?_⟩
      have := ks.e13 e u t n hj
      refine ⟨?_, this.2⟩
      show (if s.fl.phase n ≠ .used ∧ fl.phase n = .used then Stat.priv i else s.stat n) = .chain
      rw [if_neg, this.1]
      intro hx
      exact absurd this.1 (by
        have := (k.st n (alloc_of k (by rw [this.1]; simp))).2 hx.1
        rw [this]; simp)

theorem sole_timely {B : Nat} {m : Mode} {s : St α} {a : Act α} {p : Nat} (k : Inv B m s) (ks : Sole p s) : timelyAt s a := by
  cases a with
  | start => trivial
  | go i ch =>
    intro u hu j e t hx
    have hj := ks.only j (by rw [hx]; rfl)
    subst hj
    have h1 := (ks.e13 e true t u hx).1
    have h2 := (k.fl.lv u i).2 (by rw [hu]; rfl)
    have := (k.st u (alloc_of k (by rw [h1]; simp))).2 (by rw [h2]; simp)
    rw [this] at h1; cases h1

/-- With one producer, marks are cleared in time. -/
theorem timely_sole {B : Nat} {m : Mode} {p : Nat} (hB : 0 < B) : ∀ {acts : List (Act α)} {s : St α}, Inv B m s → IdleFl s → Sole p s →
    (∀ a ∈ acts, a.allowed m) → (m = .multi → ∀ p ∈ trace B s acts, freshAt p.1 p.2) → (∀ a ∈ acts, ∀ i e u, a = .start i (.enq e u) → i = p) →
    ∀ p ∈ trace B s acts, timelyAt p.1 p.2
  | [], _, _, _, _, _, _, _ => by intro p hp; cases hp
  | a :: as, s, k, ki, ks, ha, hF, hp => by
    intro q hq
    simp only [trace, List.mem_cons] at hq hF
    rcases hq with hq | hq
    · subst hq; exact sole_timely k ks
    · split at hq
      · rename_i s1 h1
        simp only [h1] at hF
        exact timely_sole hB (inv_step hB k ki h1 (ha a (by simp)) (sole_timely k ks) (fun hm => hF hm _ (.inl rfl))) (idle_step ki h1)
          (sole_step hB k ks h1 (hp a (by simp))) (fun x hx => ha x (by simp [hx])) (fun hm x hx => hF hm x (.inr hx)) (fun x hx => hp x (by simp [hx])) q hq
      · cases hq

end Queue
end Salticidae
