import Verif.Lemmas.QueueTurnRun
import Verif.Lemmas.QueueAny
/-!
Operations of the queues that run alone return: what a thread is in, step by step.
-/
namespace Salticidae
namespace Queue
open FreeList (upd upd_apply upd_self upd_other)

variable {α : Type}

def retF : FreeList.Pc → Bool
  | .ret _ => true
  | _ => false
/-- In release_ref, called by the operation itself or by push. -/
def relF : FreeList.Pc → Bool
  | .rel _ _ .ret | .put1 _ .ret | .put2 _ _ .ret | .put3 _ _ .ret | .put4 _ .ret => true
  | .ret .none => true
  | _ => false
def pushF : FreeList.Pc → Bool
  | .push _ => true
  | f => relF f
def refF (t : Nat) : FreeList.Pc → Bool
  | .ref1 u => u == t
  | .ref2 u _ => u == t
  | .ret .ok => true
  | .ret .failed => true
  | _ => false
def gotK' : FreeList.K → Bool
  | .ret => false
  | _ => true
def popG : FreeList.Pc → Bool
  | .pop1 | .pop2 _ | .pop3 _ _ | .pop4 _ | .pop5 _ _ => true
  | .rel _ _ k | .put1 _ k | .put2 _ _ k | .put3 _ _ k | .put4 _ k => gotK' k
  | .ret .empty => true
  | .ret (.popped _) => true
  | _ => false

/-- Where a thread can be in the free list. -/
def Fit (p : Pc α) (f : FreeList.Pc) : Bool :=
  match p with
  | .e2 _ _ t => refF t f
  | .m2 h => refF h f
  | .e7 _ _ _ | .w3 _ _ => popG f
  | .e14 _ _ _ => pushF f || retF f
  | .eR _ _ | .eF | .eD | .mR | .mF | .mD _ => relF f
  | .d6 | .m5p _ | .a2 => pushF f
  | _ => retF f

theorem call_pc' (s : FreeList.St) (i : Nat) (op : FreeList.Op) : (FreeList.call s i op).pc i = match op with
    | .new => .ret (.popped s.alloc) | .ref u => .ref1 u | .push u => .push u | .release u => .rel u false .ret | .pop => .pop1 := call_pc s i op

theorem local_fit {B : Nat} {s s' : St α} {i : Nat} {ch : Bool} {r : FreeList.Res} (hr : s.fl.pc i = .ret r)
    (h : localStep B s i ch r = some s') : Fit (s'.pc i) (s'.fl.pc i) = true := by
  simp only [localStep] at h
  cases hp : s.pc i <;>
    simp only [hp, enqStep, deqStep, rewStep, mpmcStep, addStep, Option.none_or, Option.or_none, Option.some_or, gotBlk] at h
  all_goals (repeat' split at h)
  all_goals first
    | (cases h; done)
    | (cases h
       simp only [St.ret, St.setPc, St.rcd, St.setBlk, St.setStat, St.call, upd_self, call_pc, FreeList.St.setFreed, hr]
       first
         | rfl
         | simp [Fit, refF, retF]
         | (split <;> rfl))

/-- In release_ref. -/
def fitK (p : Pc α) (k : FreeList.K) : Bool := Fit p (.put1 0 k)
theorem fit_rel {p : Pc α} {k : FreeList.K} {u : Nat} {b : Bool} : Fit p (.rel u b k) = fitK p k := by cases p <;> cases k <;> rfl
theorem fit_put1 {p : Pc α} {k : FreeList.K} {u : Nat} : Fit p (.put1 u k) = fitK p k := by cases p <;> cases k <;> rfl
theorem fit_put2 {p : Pc α} {k : FreeList.K} {u : Nat} {t : Option Nat} : Fit p (.put2 u t k) = fitK p k := by cases p <;> cases k <;> rfl
theorem fit_put3 {p : Pc α} {k : FreeList.K} {u : Nat} {t : Option Nat} : Fit p (.put3 u t k) = fitK p k := by cases p <;> cases k <;> rfl
theorem fit_put4 {p : Pc α} {k : FreeList.K} {u : Nat} : Fit p (.put4 u k) = fitK p k := by cases p <;> cases k <;> rfl
theorem fit_k {p : Pc α} {k : FreeList.K} (h : fitK p k = true) : Fit p k.pc = true := by
  cases p <;> cases k <;> first | rfl | cases h

theorem fit_push {p : Pc α} {u : Nat} (h : Fit p (.push u) = true) : Fit p (.rel u true .ret) = true := by
  cases p <;> first | rfl | cases h

theorem fit_pop {p : Pc α} {f : FreeList.Pc} (hf : f = .pop1 ∨ (∃ u, f = .pop2 u) ∨ (∃ u n, f = .pop3 u n) ∨ (∃ u, f = .pop4 u) ∨ (∃ u nv, f = .pop5 u nv)) (h : Fit p f = true) :
    ∀ f', popG f' = true → Fit p f' = true := by
  rcases hf with rfl | ⟨u, rfl⟩ | ⟨u, n, rfl⟩ | ⟨u, rfl⟩ | ⟨u, n, rfl⟩ <;> cases p <;> intro f' h' <;> first | exact h' | cases h

theorem fit_ref {p : Pc α} {u : Nat} {f : FreeList.Pc} (hf : f = .ref1 u ∨ ∃ n, f = .ref2 u n) (h : Fit p f = true) : ∀ f', f' = .ret .ok ∨ f' = .ret .failed ∨ (∃ n, f' = .ref2 u n) → Fit p f' = true := by
  rcases hf with rfl | ⟨n, rfl⟩ <;> cases p <;> intro f' h' <;> (try cases h) <;> rcases h' with rfl | rfl | ⟨n', rfl⟩ <;> first | rfl | exact h

theorem micro_fit {s s' : FreeList.St} {i : Nat} {ch : Bool} {p : Pc α} (k : Fit p (s.pc i) = true) (h : FreeList.micro s i ch = some s') : Fit p (s'.pc i) = true := by
  simp only [FreeList.micro] at h
  cases hp : s.pc i <;> rw [hp] at k <;> simp only [hp] at h
  all_goals try (cases h; done)
  all_goals (cases h)
  all_goals (try simp only [FreeList.release, FreeList.St.setPc, FreeList.St.setCnt, FreeList.St.addHolder, FreeList.St.setFreed, FreeList.St.setNext, FreeList.St.setPhase, FreeList.St.delHolder])
  all_goals (repeat' split)
  all_goals (simp only [upd_self])
  all_goals first
    | exact fit_ref (.inl rfl) k _ (by simp)
    | exact fit_ref (.inr ⟨_, rfl⟩) k _ (by simp)
    | exact fit_push k
    | exact fit_pop (by simp) k _ rfl
    | (simp only [fit_rel, fit_put1, fit_put2, fit_put3, fit_put4] at k ⊢
       first | exact k | exact fit_k k)

/-- What is needed besides the invariant. -/
structure Prog (s : St α) : Prop where
  fit : ∀ j, Fit (s.pc j) (s.fl.pc j) = true
  hp : ∀ n j, s.hid n = some j → ∃ e u t, s.pc j = .e12 e u t n ∨ s.pc j = .e13 e u t n
  qf : s.lk = none → (s.fl.node s.qtail).freed = true → s.hid s.qtail ≠ none

theorem hp_upd {hid : Nat → Option Nat} {pc : Nat → Pc α} {i n0 : Nat} {x : Option Nat} {p : Pc α} (k : ∀ n j, hid n = some j → ∃ e u t, pc j = .e12 e u t n ∨ pc j = .e13 e u t n)
    (hi : ∀ n, (∃ e u t, pc i = .e12 e u t n ∨ pc i = .e13 e u t n) → n = n0) (hx : ∀ j, x = some j → j = i ∧ ∃ e u t, p = .e12 e u t n0 ∨ p = .e13 e u t n0) :
    ∀ n j, upd hid n0 x n = some j → ∃ e u t, upd pc i p j = .e12 e u t n ∨ upd pc i p j = .e13 e u t n := by
  intro n j h
  by_cases hn : n = n0
  · subst hn
    rw [upd_self] at h
    obtain ⟨rfl, h1⟩ := hx j h
    rwa [upd_self]
  · rw [upd_other _ _ hn] at h
    have h1 := k n j h
    have : j ≠ i := fun e => hn (hi n (e ▸ h1))
    rwa [upd_other _ _ this]

theorem local_hid {B : Nat} {s s' : St α} {i : Nat} {ch : Bool} {r : FreeList.Res} (hr : s.fl.pc i = .ret r) (k : Prog s)
    (h : localStep B s i ch r = some s') : (∀ n j, s'.hid n = some j → ∃ e u t, s'.pc j = .e12 e u t n ∨ s'.pc j = .e13 e u t n) ∧
    (s'.lk = none → (s'.fl.node s'.qtail).freed = true → s'.hid s'.qtail ≠ none) := by
  have k1 := k.hp
  have k2 := k.qf
  simp only [localStep] at h
  cases hp : s.pc i <;>
    simp only [hp, enqStep, deqStep, rewStep, mpmcStep, addStep, Option.none_or, Option.or_none, Option.some_or, gotBlk] at h
  all_goals (repeat' split at h)
  all_goals first
    | (cases h; done)
    | (cases h
       simp only [St.ret, St.setPc, St.rcd, St.setBlk, St.setStat, St.call, FreeList.St.setFreed, fcall_node]
       first
         | (refine ⟨fun n j hx => ?_, k2⟩
            obtain ⟨e, u, t, h1⟩ := k1 n j hx
            refine ⟨e, u, t, ?_⟩
            have : j ≠ i := fun e => by rw [e, hp] at h1; rcases h1 with h1 | h1 <;> cases h1
            simpa only [upd_apply, if_neg this] using h1)
         | (refine ⟨hp_upd k1 (fun n h1 => ?_) (fun j h1 => ?_), fun h1 h2 => ?_⟩
            · rw [hp] at h1
              obtain ⟨e, u, t, h1⟩ := h1
              rcases h1 with h1 | h1 <;> cases h1 <;> rfl
            · cases h1
              try exact ⟨rfl, _, _, _, by first | exact .inl rfl | exact .inr rfl⟩
            · first
                | (cases h1; done)
                | (simp only [upd_self]; simp; done)
                | contradiction
                | (simp only [upd_apply] at h2 ⊢
                   split at h2
                   · cases h2
                   · rename_i hn; rw [if_neg hn]; exact k2 h1 h2)))

theorem micro_freed {s s' : FreeList.St} {i : Nat} {ch : Bool} (h : FreeList.micro s i ch = some s') (u : Nat) : (s'.node u).freed = (s.node u).freed ∨ s.pc i = .push u := by
  simp only [FreeList.micro] at h
  cases hp : s.pc i <;> simp only [hp] at h
  all_goals try (cases h; done)
  all_goals (cases h)
  all_goals (try simp only [FreeList.release, FreeList.St.setPc, FreeList.St.setCnt, FreeList.St.addHolder, FreeList.St.setFreed, FreeList.St.setNext, FreeList.St.setPhase, FreeList.St.delHolder])
  all_goals (repeat' split)
  all_goals grind [upd_apply]

variable [DecidableEq α]

theorem prog_step {B : Nat} {m : Mode} {s s' : St α} {a : Act α} (k : Inv B m s) (kp : Prog s) (h : step B s a = some s') : Prog s' := by
  cases a with
  | start i c =>
    simp only [step] at h
    split at h
    · rename_i y hy
      cases h
      refine ⟨fun j => ?_, fun n j hx => ?_, kp.qf⟩
      · simp only [St.setPc, St.rcd, upd_apply]
        split
        · rename_i e
          have := kp.fit i
          rw [hy] at this
          subst e
          cases c <;> exact this
        · exact kp.fit j
      · obtain ⟨e, u, t, h1⟩ := kp.hp n j hx
        refine ⟨e, u, t, ?_⟩
        have : j ≠ i := fun e => by rw [e, hy] at h1; rcases h1 with h1 | h1 <;> cases h1
        simpa only [St.setPc, St.rcd, upd_other _ _ this] using h1
    · cases h
  | go i ch =>
    simp only [step] at h
    split at h
    · rename_i r hr
      obtain ⟨h1, h2⟩ := local_hid hr kp h
      refine ⟨fun j => ?_, h1, h2⟩
      by_cases hj : j = i
      · subst hj; exact local_fit hr h
      · rw [(local_pc h j hj).1, (local_pc h j hj).2]; exact kp.fit j
    · simp only [Option.map_eq_some_iff] at h
      obtain ⟨fl, h1, h2⟩ := h
      subst h2
      refine ⟨fun j => ?_, kp.hp, fun h3 h4 => ?_⟩
      · by_cases hj : j = i
        · subst hj; exact micro_fit (kp.fit j) h1
        · show Fit (s.pc j) (fl.pc j) = true
          rw [micro_other h1 hj]; exact kp.fit j
      · rcases micro_freed h1 s.qtail with h5 | h5
        · exact kp.qf h3 (by rw [← h5]; exact h4)
        · have h6 := (k.fl.lv s.qtail i).2 (by rw [h5]; rfl)
          have h7 : s.stat s.qtail = .chain := (k.mem _).1 (List.mem_of_getLast? (k.qt1 h3))
          have h8 : s.qtail < s.fl.alloc := k.fl.ptr i _ (by rw [h5]; rfl)
          have := (k.st _ h8).2 (by rw [h6]; simp)
          rw [h7] at this; cases this

theorem prog_init : Prog (init α) := ⟨fun _ => rfl, fun n j h => (by cases h), fun _ h => (by cases h)⟩

theorem prog_run {B : Nat} {m : Mode} (hB : 0 < B) : ∀ {acts : List (Act α)} {s s' : St α}, Inv B m s → IdleFl s → Prog s → run B s acts = some s' →
    (∀ a ∈ acts, a.allowed m) → (∀ p ∈ trace B s acts, timelyAt p.1 p.2) → (m = .multi → ∀ p ∈ trace B s acts, freshAt p.1 p.2) → Prog s'
  | [], s, s', k, ki, kp, h, _, _, _ => by cases h; exact kp
  | a :: as, s, s', k, ki, kp, h, ha, hT, hF => by
    simp only [run, Option.bind_eq_some_iff] at h
    obtain ⟨s1, h1, h2⟩ := h
    simp only [trace, h1, List.mem_cons] at hT hF
    exact prog_run hB (inv_step hB k ki h1 (ha a (by simp)) (hT _ (.inl rfl)) (fun hm => hF hm _ (.inl rfl))) (idle_step ki h1) (prog_step k kp h1) h2
      (fun x hx => ha x (by simp [hx])) (fun p hp => hT p (.inr hp)) (fun hm p hp => hF hm p (.inr hp))

/-! # Alone -/

/-- Steps of thread i alone lead to its operation's return. -/
def Done (B i : Nat) (s : St α) : Prop := ∃ n s', run B s (List.replicate n (.go i true)) = some s' ∧ Idle s' i

/-- Everything that is known when only thread i is in an operation. -/
structure Alone (B : Nat) (m : Mode) (i : Nat) (s : St α) : Prop where
  inv : Inv B m s
  ki : IdleFl s
  prog : Prog s
  others : ∀ j, j ≠ i → Idle s j
  fresh : m = .multi → ∀ h, s.pc i = .m2 h → retF (s.fl.pc i) = false → s.qhead = h

theorem alone_timely {B : Nat} {m : Mode} {i : Nat} {s : St α} (k : Alone B m i s) : timelyAt s (.go i true) := by
  intro u hu j e t hx
  by_cases hj : j = i
  · subst hj
    have := k.prog.fit j
    rw [hx, hu] at this
    cases this
  · obtain ⟨x, h⟩ := k.others j hj
    rw [h] at hx; cases hx

theorem alone_fresh {B : Nat} {m : Mode} {i : Nat} {s : St α} (k : Alone B m i s) (hm : m = .multi) : freshAt s (.go i true) := by
  intro u n h1 h2 _ _
  exact k.fresh hm u h2 (by rw [h1]; rfl)

/-- A dequeue that is looking at the head gets there from the start of a round. -/
theorem local_m2 {B : Nat} {s s' : St α} {i h : Nat} {ch : Bool} {r : FreeList.Res} (hl : localStep B s i ch r = some s') (hp : s'.pc i = .m2 h) : s'.qhead = h := by
  simp only [localStep] at hl
  cases hq : s.pc i <;>
    simp only [hq, enqStep, deqStep, rewStep, mpmcStep, addStep, Option.none_or, Option.or_none, Option.some_or, gotBlk] at hl
  all_goals (repeat' split at hl)
  all_goals first
    | (cases hl; done)
    | (cases hl
       simp only [St.ret, St.setPc, St.rcd, St.setBlk, St.setStat, St.call, upd_self] at hp ⊢
       first
         | (cases hp; done)
         | (cases hp; rfl)
         | (split at hp <;> cases hp))

theorem alone_step {B : Nat} {m : Mode} {i : Nat} {s s' : St α} (hB : 0 < B) (k : Alone B m i s) (h : step B s (.go i true) = some s') : Alone B m i s' := by
  refine ⟨inv_step hB k.inv k.ki h trivial (alone_timely k) (fun hm => alone_fresh k hm), idle_step k.ki h, prog_step k.inv k.prog h, fun j hj => ?_, fun hm u hu hr => ?_⟩
  · obtain ⟨x, hx⟩ := k.others j hj
    refine ⟨x, ?_⟩
    simp only [step] at h
    split at h
    · rw [(local_pc h j hj).1]; exact hx
    · simp only [Option.map_eq_some_iff] at h
      obtain ⟨fl, h1, h2⟩ := h
      subst h2
      exact hx
  · simp only [step] at h
    split at h
    · exact local_m2 h hu
    · rename_i hn
      simp only [Option.map_eq_some_iff] at h
      obtain ⟨fl, h1, h2⟩ := h
      subst h2
      refine k.fresh hm u hu ?_
      cases hx : s.fl.pc i <;> first | rfl | exact absurd hx (hn _)

theorem step_some {B : Nat} {i : Nat} {s : St α} (k : Prog s) (h : ¬ Idle s i) : ∃ s', step B s (.go i true) = some s' := by
  have hf := k.fit i
  simp only [step]
  cases hp : s.fl.pc i
  case ret r =>
    rw [hp] at hf
    simp only [localStep]
    cases hq : s.pc i <;> rw [hq] at hf <;>
      simp only [enqStep, deqStep, rewStep, mpmcStep, addStep, Option.none_or, Option.or_none, Option.some_or, gotBlk]
    case idle x => exact absurd ⟨x, hq⟩ h
    all_goals (repeat' split)
    all_goals first
      | exact ⟨_, rfl⟩
      | (cases r <;> first | exact ⟨_, rfl⟩ | (cases hf; done))
      | (cases r <;> first | (cases hf; done) | (simp_all; done))
  all_goals (simp only [FreeList.micro, hp]; exact ⟨_, rfl⟩)

/-- A step, then the rest. -/
theorem done_go {B : Nat} {m : Mode} {i : Nat} {s : St α} (hB : 0 < B) (k : Alone B m i s) (hn : ¬ Idle s i) (H : ∀ s', step B s (.go i true) = some s' → Alone B m i s' → Done B i s') :
    Done B i s := by
  obtain ⟨s', h⟩ := step_some (B := B) k.prog hn
  obtain ⟨n, t, h1, h2⟩ := H s' h (alone_step hB k h)
  exact ⟨n + 1, t, by simp [List.replicate_succ, run, h, h1], h2⟩

end Queue
end Salticidae
