import Verif.Lemmas.QueueTurn
import Verif.Lemmas.QueueSpec
/-!
Operations that run one after the other: every history.
-/
namespace Salticidae
namespace Queue
open FreeList (upd upd_apply upd_self upd_other)
open Spec.Queue (isAdd)

variable {α : Type} [DecidableEq α]

theorem popF_pc (k : FreeList.K) : popF k.pc = againK k := by cases k <;> rfl

theorem gotF_pc (k : FreeList.K) : gotF k.pc = gotK k := by cases k <;> rfl

theorem micro_solo {B : Nat} {m : Mode} {s : St α} {i : Nat} {ch : Bool} {fl : FreeList.St} (k : Inv B m s) (ks : Solo s i)
    (h : FreeList.micro s.fl i ch = some fl) : Solo (afterMicro s i fl) i := by
  obtain ⟨k1, k2, k3, k4, k5, k6⟩ := ks
  have hc := k.fl.chain
  have hK : ∀ k : FreeList.K, k.pc ≠ .ret .empty := by intro k; cases k <;> simp [FreeList.K.pc]
  refine ⟨k1, k2, ?_, ?_, ?_, ?_⟩ <;> simp only [afterMicro]
  · intro e u t hp hx
    simp only [FreeList.micro] at h
    split at h <;> (try (cases h)) <;> simp only [FreeList.release, FreeList.St.setPc, FreeList.St.setCnt, FreeList.St.addHolder, FreeList.St.setFreed, FreeList.St.setNext,
      FreeList.St.setPhase, FreeList.St.delHolder] at hx ⊢
    case h_10 =>
      cases hl : s.fl.list with
      | nil => split <;> rfl
      | cons v l =>
        rw [hl] at hc
        rw [hc.1] at hx
        simp [upd_self] at hx
    all_goals (repeat' split at hx)
    all_goals simp only [upd_self] at hx
    all_goals first | (cases hx; done) | exact absurd hx (hK _)
  · intro e u t n hp
    obtain ⟨r, h1⟩ := k4 e u t n hp
    simp [FreeList.micro, h1] at h
  · intro hx
    apply k5
    simp only [FreeList.micro] at h
    split at h <;> (try (cases h)) <;> simp only [FreeList.release, FreeList.St.setPc, FreeList.St.setCnt, FreeList.St.addHolder, FreeList.St.setFreed, FreeList.St.setNext,
      FreeList.St.setPhase, FreeList.St.delHolder] at hx ⊢
    all_goals (repeat' split at hx)
    all_goals simp only [upd_self] at hx
    all_goals grind [popF, againK, popF_pc]
  · intro u j hx
    split at hx
    · rename_i hph
      cases hx
      refine ⟨rfl, .inr ?_⟩
      simp only [FreeList.micro] at h
      split at h <;> (try (cases h)) <;> simp only [FreeList.release, FreeList.St.setPc, FreeList.St.setCnt, FreeList.St.addHolder, FreeList.St.setFreed, FreeList.St.setNext,
        FreeList.St.setPhase, FreeList.St.delHolder] at hph ⊢
      all_goals (repeat' split at hph)
      all_goals (rename_i heq; first | exact absurd hph.2 hph.1 | skip)
      all_goals first
        | (rw [if_pos heq]; simp only [upd_self]; grind [popF, gotF, gotK, upd_apply])
        | grind [popF, gotF, gotK, upd_apply]
    · obtain ⟨h1, h2⟩ := k6 u j hx
      refine ⟨h1, h2.imp_right fun ⟨h3, h4⟩ => ⟨h3, ?_⟩⟩
      simp only [FreeList.micro] at h
      split at h <;> (try (cases h)) <;> simp only [FreeList.release, FreeList.St.setPc, FreeList.St.setCnt, FreeList.St.addHolder, FreeList.St.setFreed, FreeList.St.setNext,
        FreeList.St.setPhase, FreeList.St.delHolder]
      all_goals (rename s.fl.pc i = _ => heq; rw [heq] at h4)
      all_goals (repeat' split)
      all_goals simp only [upd_self]
      all_goals grind [gotF, gotK, gotF_pc]

theorem turn_step {B : Nat} {m : Mode} {s s' : St α} {i : Nat} {a : Act α} (k : Inv B m s) (ki : IdleFl s) (kt : Turn s i) (h : step B s a = some s') (ht : turnAt s a) :
    ∃ j, Turn s' j := by
  cases a with
  | start j c =>
    simp only [step] at h
    split at h
    · cases h
      refine ⟨j, ⟨?_, ?_, ?_, ?_, ?_, ?_⟩, fun l hl => ?_⟩
      · intro t; simp only [St.setPc, St.rcd, upd_self]; cases c <;> intro hx <;> cases hx
      · intro t; simp only [St.setPc, St.rcd, upd_self]; cases c <;> intro hx <;> cases hx
      · intro e u t; simp only [St.setPc, St.rcd, upd_self]; cases c <;> intro hx <;> cases hx
      · intro e u t n; simp only [St.setPc, St.rcd, upd_self]; cases c <;> intro hx <;> cases hx
      · obtain ⟨x, hx⟩ := ht j
        obtain ⟨r, hr⟩ := ki j x hx
        intro hp
        simp only [St.setPc, St.rcd, hr] at hp
        cases hp
      · intro u l hu
        obtain ⟨x, hx⟩ := ht i
        have := (kt.own u l hu).2
        rw [hx] at this
        rcases this with h1 | h1
        · cases h1
        · exact absurd h1.1 (by simp [Pc.isPop])
      · simp only [Idle, St.setPc, St.rcd, upd_apply, if_neg hl]; exact ht l
    · cases h
  | go j ch =>
    have hij : j = i := by
      by_cases e : j = i
      · exact e
      · obtain ⟨x, hx⟩ := kt.one j e
        obtain ⟨r, hr⟩ := ki j x hx
        simp [step, hr, localStep, hx, enqStep, deqStep, rewStep, mpmcStep, addStep] at h
    subst hij
    simp only [step] at h
    split at h
    · rename_i r hr
      refine ⟨j, local_solo kt.toSolo hr h, fun l hl => ?_⟩
      obtain ⟨x, hx⟩ := kt.one l hl
      exact ⟨x, by rw [(local_pc h l hl).1]; exact hx⟩
    · simp only [Option.map_eq_some_iff] at h
      obtain ⟨fl, h1, h2⟩ := h
      subst h2
      exact ⟨j, micro_solo k kt.toSolo h1, kt.one⟩

theorem turn_init : Turn (init α) 0 := by
  refine ⟨⟨?_, ?_, ?_, ?_, ?_, ?_⟩, fun j _ => ⟨_, rfl⟩⟩ <;> simp [init, Pc.tailOf, FreeList.init, popF]
  intro u j; split <;> simp

theorem turn_only {s : St α} {i j : Nat} (kt : Turn s i) (h : ¬ Idle s j) : j = i := by
  by_cases e : j = i
  · exact e
  · exact absurd (kt.one j e) h

theorem turn_timely {s : St α} {i : Nat} {a : Act α} (ki : IdleFl s) (kt : Turn s i) : timelyAt s a := by
  cases a with
  | start => trivial
  | go j ch =>
    intro u hu l e t hx
    have hl : l = i := turn_only kt (fun ⟨x, hy⟩ => by rw [hy] at hx; cases hx)
    subst hl
    obtain ⟨r, hr⟩ := kt.mark _ _ _ _ hx
    have hj : j = l := turn_only kt (fun ⟨x, hy⟩ => by
      obtain ⟨r, hr⟩ := ki j x hy
      rw [hr] at hu; cases hu)
    subst hj
    rw [hr] at hu; cases hu

theorem turn_fresh {s : St α} {i : Nat} {a : Act α} (kt : Turn s i) : freshAt s a := by
  cases a with
  | start => trivial
  | go j ch =>
    intro u n _ hu _ _
    have hj : j = i := turn_only kt (fun ⟨x, hy⟩ => by rw [hy] at hu; cases hu)
    subst hj
    exact (kt.head u hu).symm

theorem turn_run {B : Nat} {m : Mode} (hB : 0 < B) : ∀ {acts : List (Act α)} {s s' : St α} {i : Nat}, Inv B m s → IdleFl s → Turn s i → run B s acts = some s' →
    (∀ a ∈ acts, a.allowed m) → (∀ p ∈ trace B s acts, turnAt p.1 p.2) → Inv B m s' ∧ IdleFl s' ∧ ∃ j, Turn s' j
  | [], s, s', i, k, ki, kt, h, _, _ => by cases h; exact ⟨k, ki, i, kt⟩
  | a :: as, s, s', i, k, ki, kt, h, ha, hT => by
    simp only [run, Option.bind_eq_some_iff] at h
    obtain ⟨s1, h1, h2⟩ := h
    simp only [trace, h1, List.mem_cons] at hT
    obtain ⟨j, hj⟩ := turn_step k ki kt h1 (hT _ (.inl rfl))
    exact turn_run hB (inv_step hB k ki h1 (ha a (by simp)) (turn_timely ki kt) (fun _ => turn_fresh kt)) (idle_step ki h1) hj h2
      (fun x hx => ha x (by simp [hx])) (fun p hp => hT p (.inr hp))

theorem le_sum_mul {l : List Nat} {f : Nat → Nat} {B : Nat} (h : ∀ x ∈ l, B ≤ f x) : l.length * B ≤ (l.map f).sum := by
  induction l with
  | nil => simp
  | cons a l ih =>
    have h1 := h a (by simp)
    have h2 := ih (fun x hx => h x (by simp [hx]))
    simp only [List.map_cons, List.sum_cons, List.length_cons, Nat.add_mul]
    omega

/-- An enqueue that finds the free list empty when no other operation is running: every block is in the queue. -/
theorem all_chain {B : Nat} {m : Mode} {s : St α} {i : Nat} (k : Inv B m s) (ki : IdleFl s) (kt : Turn s i) {e : α} {b : Bool} {t : Nat} (hp : s.pc i = .e7 e b t)
    (hf : s.fl.pc i = .ret .empty) : s.lk = none ∧ t = s.qtail ∧ ∀ u, u < s.fl.alloc → s.stat u = .chain := by
  have hret : ∀ j, ∃ r, s.fl.pc j = .ret r := fun j => by
    by_cases e : j = i
    · subst e; exact ⟨_, hf⟩
    · obtain ⟨x, hx⟩ := kt.one j e
      exact ki j x hx
  have hlk : s.lk = none := by
    cases hl : s.lk with
    | none => rfl
    | some x =>
      obtain ⟨j, n⟩ := x
      have h1 := (k.qt2 j n hl).2.2
      by_cases e : j = i
      · subst e; rw [hp] at h1; cases h1
      · obtain ⟨x, hx⟩ := kt.one j e
        rw [hx] at h1; cases h1
  have ht : t = s.qtail := kt.tail t (by rw [hp]; rfl)
  refine ⟨hlk, ht, fun u hu => ?_⟩
  have hl := kt.empty e b t hp hf
  cases hs : s.stat u with
  | chain => rfl
  | priv j =>
    have := kt.own u j hs
    rw [hp, hf] at this
    rcases this.2 with h | h
    · cases h
    · cases h.2
  | free =>
    exfalso
    have hph := (k.st u hu).1 hs
    cases hx : s.fl.phase u with
    | used => exact hph hx
    | leaving j =>
      obtain ⟨r, hr⟩ := hret j
      have := (k.fl.lv u j).1 hx
      rw [hr] at this; cases this
    | putting j =>
      obtain ⟨r, hr⟩ := hret j
      have := (k.fl.pt u j).1 hx
      rw [hr] at this; cases this
    | entering j =>
      obtain ⟨r, hr⟩ := hret j
      have := (k.fl.en u j).1 hx
      rw [hr] at this; cases this
    | listed =>
      have := (k.fl.mem u).2 (.inl hx)
      rw [hl] at this; cases this
    | pending =>
      have h1 := k.fl.pend u hx
      obtain ⟨j, hj⟩ := List.exists_mem_of_ne_nil _ h1
      have h2 := List.count_pos_iff.mpr hj
      rw [k.fl.hold j u] at h2
      obtain ⟨r, hr⟩ := hret j
      have h3 : (s.fl.pc j).holds u = 0 := by rw [hr]; rfl
      rw [h3, Nat.add_zero, k.held j] at h2
      have h4 := List.count_pos_iff.mp h2
      by_cases e : j = i
      · subst e
        rw [hp] at h4
        simp [heldOf, Pc.wants, Pc.refs] at h4
        have h5 := k.qt1 hlk
        have h6 := (k.mem s.qtail).1 (List.mem_of_getLast? h5)
        rw [h4, ht, h6] at hs; cases hs
      · obtain ⟨x, hx⟩ := kt.one j e
        rw [hx] at h4
        simp [heldOf, Pc.wants, Pc.refs] at h4

/-- So the queue is full, but for what has been taken from its first block. -/
theorem refuse_full {B : Nat} {m : Mode} {s : St α} {i : Nat} (k : Inv B m s) (ki : IdleFl s) (kt : Turn s i) {e : α} {b : Bool} {t : Nat} (hp : s.pc i = .e7 e b t)
    (hf : s.fl.pc i = .ret .empty) {q : Spec.Queue.Q α} (hq : Spec.Queue.replay Spec.Queue.empty s.log = some q) :
    s.fl.alloc * B ≤ q.q.length + (s.blk s.qhead).head ∧ (s.blk s.qhead).head ≤ B := by
  obtain ⟨hlk, ht, hc⟩ := all_chain k ki kt hp hf
  obtain ⟨q', h1, h2, _⟩ := k.leg
  rw [hq] at h1; cases h1
  have h3 := congrArg List.length h2
  rw [List.length_map, cont_length] at h3
  have h4 := length_le_of_subset (List.nodup_range (n := s.fl.alloc)) (m := s.chain) (fun x hx => (k.mem x).2 (hc x (List.mem_range.mp hx)))
  rw [List.length_range] at h4
  have hloc := k.loc i
  rw [hp] at hloc
  have hfull : ∀ x ∈ s.chain, (s.blk x).tail = B := fun x hx => by
    cases hn : (s.blk x).next with
    | none =>
      have h8 := (linked_last k.nd k.link hx).1 hn
      rw [k.qt1 hlk, ← ht] at h8
      cases h8
      exact hloc.2.1
    | some y => exact k.full x ((k.mem x).1 hx) (by rw [hn]; simp)
  have h5 : s.chain.tail.length * B ≤ (s.chain.tail.map fun b => (s.blk b).tail - (s.blk b).head).sum := by
    refine le_sum_mul fun x hx => ?_
    have hx' := List.mem_of_mem_tail hx
    have h6 := k.zero x hx
    have h7 := hfull x hx'
    omega
  have hhd := k.hd
  have h7 : s.fl.alloc * B ≤ s.chain.length * B := Nat.mul_le_mul_right B h4
  cases hch : s.chain with
  | nil => rw [hch] at hhd; cases hhd
  | cons a l =>
    rw [hch] at h3 h5 h7 hhd
    cases hhd
    have h8 := hfull s.qhead (by rw [hch]; simp)
    have h9 := k.ht s.qhead ((k.mem _).1 (by rw [hch]; simp))
    simp only [List.map_cons, List.sum_cons, List.tail_cons, List.length_cons, Nat.add_mul] at h3 h5 h7
    omega

/-- The step that refuses an enqueue. -/
theorem local_refuse {B : Nat} {s s' : St α} {i : Nat} {ch : Bool} {r : FreeList.Res} (h : localStep B s i ch r = some s') {l : List (Ev α)} {j : Nat}
    (hl : l ++ [.refuse j] <+: s'.log) : l ++ [.refuse j] <+: s.log ∨ (l = s.log ∧ j = i ∧ ∃ e t, s.pc i = .e7 e false t ∧ r = .empty) := by
  simp only [localStep] at h
  cases hp : s.pc i <;>
    simp only [hp, enqStep, deqStep, rewStep, mpmcStep, addStep, Option.none_or, Option.or_none, Option.some_or, gotBlk] at h
  all_goals (repeat' split at h)
  all_goals first
    | (cases h; done)
    | (cases h
       simp only [St.setPc, St.call, St.setBlk, St.setStat, St.rcd, St.ret, List.prefix_concat_iff] at hl
       first
       | exact .inl hl
       | (rcases hl with hl | hl
          · have := List.append_inj' hl rfl; simp at this
            try (rename_i hx; exact .inr ⟨this.1, this.2, _, _, by rw [hx.2], hx.1⟩)
          · first
            | exact .inl hl
            | (rcases hl with hl | hl
               · have := List.append_inj' hl rfl; simp at this
               · exact .inl hl)))

theorem step_refuse {B : Nat} {s s' : St α} {a : Act α} (h : step B s a = some s') {l : List (Ev α)} {i : Nat} (hl : l ++ [.refuse i] <+: s'.log) :
    l ++ [.refuse i] <+: s.log ∨ (l = s.log ∧ ∃ e t, s.pc i = .e7 e false t ∧ s.fl.pc i = .ret .empty) := by
  cases a with
  | start j c =>
    simp only [step] at h
    split at h
    · cases h
      simp only [St.setPc, St.rcd, List.prefix_concat_iff] at hl
      rcases hl with hl | hl
      · have := List.append_inj' hl rfl; simp at this
      · exact .inl hl
    · cases h
  | go j ch =>
    simp only [step] at h
    split at h
    · rename_i r hr
      rcases local_refuse h hl with h1 | ⟨h1, h2, e, t, h3, h4⟩
      · exact .inl h1
      · subst h2; subst h4; exact .inr ⟨h1, e, t, h3, hr⟩
    · simp only [Option.map_eq_some_iff] at h
      obtain ⟨fl, h1, h2⟩ := h
      subst h2
      exact .inl hl

theorem trace_mem {B : Nat} : ∀ {a b : List (Act α)} {s : St α} {p : St α × Act α}, p ∈ trace B s a → p ∈ trace B s (a ++ b)
  | [], _, _, _, h => by cases h
  | x :: a, b, s, p, h => by
    simp only [trace, List.cons_append, List.mem_cons] at h ⊢
    rcases h with h | h
    · exact .inl h
    · right
      split at h
      · exact trace_mem h
      · cases h

theorem trace_last {B : Nat} : ∀ {a b : List (Act α)} {s s' : St α} {x : Act α}, run B s a = some s' → (s', x) ∈ trace B s (a ++ x :: b)
  | [], b, s, s', x, h => by cases h; simp [trace]
  | y :: a, b, s, s', x, h => by
    simp only [run, Option.bind_eq_some_iff] at h
    obtain ⟨s1, h1, h2⟩ := h
    simp only [trace, List.cons_append, h1, List.mem_cons]
    exact .inr (trace_last h2)

/-- Where in a history an enqueue has been refused. -/
theorem refuse_at {B : Nat} : ∀ {acts : List (Act α)} {s s' : St α}, run B s acts = some s' → ∀ l j, l ++ [.refuse j] <+: s'.log → l ++ [.refuse j] <+: s.log ∨
    ∃ as bs s1 e t, acts = as ++ bs ∧ run B s as = some s1 ∧ s1.log = l ∧ s1.pc j = .e7 e false t ∧ s1.fl.pc j = .ret .empty
  | [], s, s', h, l, j, hl => by cases h; exact .inl hl
  | a :: as, s, s', h, l, j, hl => by
    simp only [run, Option.bind_eq_some_iff] at h
    obtain ⟨s1, h1, h2⟩ := h
    rcases refuse_at h2 l j hl with h3 | ⟨x, y, s2, e, t, h3, h4, h5⟩
    · rcases step_refuse h1 h3 with h4 | ⟨h4, e, t, h5, h6⟩
      · exact .inl h4
      · exact .inr ⟨[], a :: as, s, e, t, rfl, rfl, h4.symm, h5, h6⟩
    · exact .inr ⟨a :: x, y, s2, e, t, by rw [h3]; rfl, by simp [run, h1, h4], h5⟩

/-- The log as it was, and what a step adds to it; only a start adds a call. -/
theorem local_call {B : Nat} {s s' : St α} {i : Nat} {ch : Bool} {r : FreeList.Res} (h : localStep B s i ch r = some s') {l : List (Ev α)} {j : Nat} {c : Call α}
    (hl : l ++ [.call j c] <+: s'.log) : l ++ [.call j c] <+: s.log := by
  simp only [localStep] at h
  cases hp : s.pc i <;>
    simp only [hp, enqStep, deqStep, rewStep, mpmcStep, addStep, Option.none_or, Option.or_none, Option.some_or, gotBlk] at h
  all_goals (repeat' split at h)
  all_goals first
    | (cases h; done)
    | (cases h
       simp only [St.setPc, St.call, St.setBlk, St.setStat, St.rcd, St.ret, List.prefix_concat_iff] at hl
       first
       | exact hl
       | (rcases hl with hl | hl
          · have := List.append_inj' hl rfl; simp at this
          · first
            | exact hl
            | (rcases hl with hl | hl
               · have := List.append_inj' hl rfl; simp at this
               · exact hl)))

theorem call_at {B : Nat} : ∀ {acts : List (Act α)} {s s' : St α}, run B s acts = some s' → ∀ l j c, l ++ [.call j c] <+: s'.log → l ++ [.call j c] <+: s.log ∨
    ∃ as bs s1, acts = as ++ .start j c :: bs ∧ run B s as = some s1 ∧ s1.log = l
  | [], s, s', h, l, j, c, hl => by cases h; exact .inl hl
  | a :: as, s, s', h, l, j, c, hl => by
    simp only [run, Option.bind_eq_some_iff] at h
    obtain ⟨s1, h1, h2⟩ := h
    rcases call_at h2 l j c hl with h3 | ⟨x, y, s2, h3, h4, h5⟩
    · cases a with
      | start i d =>
        have h1' := h1
        simp only [step] at h1
        split at h1
        · cases h1
          simp only [St.setPc, St.rcd, List.prefix_concat_iff] at h3
          rcases h3 with h3 | h3
          · have := List.append_inj' h3 rfl
            simp at this
            obtain ⟨rfl, rfl, rfl⟩ := this
            exact .inr ⟨[], as, s, rfl, rfl, rfl⟩
          · exact .inl h3
        · cases h1
      | go i ch =>
        simp only [step] at h1
        split at h1
        · exact .inl (local_call h1 h3)
        · simp only [Option.map_eq_some_iff] at h1
          obtain ⟨fl, h4, h5⟩ := h1
          subst h5
          exact .inl h3
    · exact .inr ⟨a :: x, y, s2, by rw [h3]; rfl, by simp [run, h1, h4], h5⟩

/-- When operations run one after the other, an enqueue is refused only when all blocks but the first are full. -/
theorem refuse_run {B : Nat} {m : Mode} (hB : 0 < B) {acts : List (Act α)} {s : St α} (h : run B (init α) acts = some s) (ha : ∀ a ∈ acts, a.allowed m)
    (hg : ∀ a ∈ acts, a.grows = false) (hT : ∀ p ∈ trace B (init α) acts, turnAt p.1 p.2) {l : List (Ev α)} {j : Nat} (hl : l ++ [.refuse j] <+: s.log) :
    ∃ as bs s1 q, acts = as ++ bs ∧ run B (init α) as = some s1 ∧ s1.log = l ∧ Spec.Queue.replay Spec.Queue.empty l = some q ∧
      (1 + l.countP isAdd) * B ≤ q.q.length + (s1.blk s1.qhead).head ∧ (s1.blk s1.qhead).head ≤ B := by
  rcases refuse_at h l j hl with h1 | ⟨as, bs, s1, e, t, rfl, h2, h3, h4, h5⟩
  · simp [init] at h1
  · obtain ⟨k, ki, i, kt⟩ := turn_run hB (inv_init B m) idle_init turn_init h2 (fun a hx => ha a (by simp [hx])) (fun p hp => hT p (trace_mem hp))
    obtain ⟨kc, _⟩ := counted_run counted_init (fun _ => rfl) (fun a hx => hg a (by simp [hx])) h2
    obtain ⟨q, hq, _⟩ := k.leg
    have hji : j = i := turn_only kt (fun ⟨x, hy⟩ => by rw [hy] at h4; cases h4)
    subst hji
    have h7 := refuse_full k ki kt h4 h5 hq
    obtain ⟨L, hn, hm, hc⟩ := kc
    have hL : L = [] := by
      cases L with
      | nil => rfl
      | cons x L =>
        have h8 := (hm x).1 (by simp)
        have : x = j := turn_only kt (fun ⟨y, hy⟩ => by rw [hy] at h8; cases h8)
        subst this
        rw [h4] at h8; cases h8
    subst hL
    simp only [List.length_nil, Nat.add_zero] at hc
    subst h3
    exact ⟨as, bs, s1, q, rfl, h2, rfl, hq, by rw [← hc]; exact h7.1, h7.2⟩

/-- When operations run one after the other, none is running at a call. -/
theorem call_quiet {B : Nat} {m : Mode} (hB : 0 < B) {acts : List (Act α)} {s : St α} (h : run B (init α) acts = some s) (ha : ∀ a ∈ acts, a.allowed m)
    (hT : ∀ p ∈ trace B (init α) acts, turnAt p.1 p.2) {l : List (Ev α)} {j : Nat} {c : Call α} (hl : l ++ [.call j c] <+: s.log) : Spec.Queue.Quiet l := by
  rcases call_at h l j c hl with h1 | ⟨as, bs, s1, rfl, h2, h3⟩
  · simp [init] at h1
  · obtain ⟨k, ki, i, kt⟩ := turn_run hB (inv_init B m) idle_init turn_init h2 (fun a hx => ha a (by simp [hx])) (fun p hp => hT p (trace_mem hp))
    have hi : ∀ j, Idle s1 j := hT _ (trace_last h2)
    obtain ⟨q, hq, _, hd⟩ := k.leg
    subst h3
    intro i c hx
    rcases Spec.Queue.thread_doing i _ q hq with ⟨_, h4⟩ | ⟨h4, _⟩
    · exact h4 c hx
    · obtain ⟨x, hx⟩ := hi i
      rw [hd i, hx] at h4
      exact h4 rfl

/-- A consumer's thread. -/
def Pc.cons : Pc α → Bool
  | .d1 | .d2 _ | .d3 _ _ | .d4 _ | .d5 _ _ | .d6 | .d7 _ _ | .d8 _ _ | .d9 _ _ | .d10 _ _ _ => true
  | .w1 _ | .w2 _ _ | .w3 _ _ | .w4 _ _ _ | .w5 _ _ _ | .w6 _ _ _ | .w7 _ _ | .w8 _ | .w9 _ _ | .w10 _ _ _ | .w11 _ _ _ | .w12 _ _ _ => true
  | .m1 | .m2 _ | .m3 _ _ | .m4 _ | .m5 _ _ | .m5p _ | .m6 _ _ | .m7 _ _ | .m8 _ _ | .m9 _ _ _ | .m10 _ _ | .mR | .mF | .mD _ => true
  | _ => false

/-- Nothing has been taken. -/
structure Untaken (s : St α) : Prop where
  pc : ∀ j, (s.pc j).cons = false
  head : ∀ u, (s.blk u).head = 0

theorem local_untaken {B : Nat} {s s' : St α} {i : Nat} {ch : Bool} {r : FreeList.Res} (h : localStep B s i ch r = some s')
    (k : Untaken s) : (s'.pc i).cons = false ∧ ∀ u, (s'.blk u).head = 0 := by
  have hx := k.pc i
  have hh := k.head
  simp only [localStep] at h
  cases hp : s.pc i <;> rw [hp] at hx <;>
    simp only [hp, enqStep, deqStep, rewStep, mpmcStep, addStep, Option.none_or, Option.or_none, Option.some_or, gotBlk] at h
  all_goals (repeat' split at h)
  all_goals first
    | (cases h; done)
    | (cases hx; done)
    | (cases h
       simp only [St.ret, St.setPc, St.rcd, St.setBlk, St.setStat, St.call, upd_self]
       refine ⟨?_, fun u => ?_⟩
       · first | rfl | (split <;> rfl)
       · first | exact hh u | (simp only [upd_apply]; split <;> first | rfl | exact hh _))

theorem untaken_step {B : Nat} {s s' : St α} {a : Act α} (k : Untaken s) (h : step B s a = some s') (ha : ∀ i, a ≠ .start i .deq ∧ a ≠ .start i .deqM ∧ ∀ e, a ≠ .start i (.rewind e)) :
    Untaken s' := by
  cases a with
  | start i c =>
    simp only [step] at h
    split at h
    · cases h
      refine ⟨fun j => ?_, k.head⟩
      simp only [St.setPc, St.rcd, upd_apply]
      split
      · cases c with
        | deq => exact absurd rfl (ha i).1
        | deqM => exact absurd rfl (ha i).2.1
        | rewind e => exact absurd rfl ((ha i).2.2 e)
        | _ => rfl
      · exact k.pc j
    · cases h
  | go i ch =>
    simp only [step] at h
    split at h
    · rename_i r hr
      have := local_untaken h k
      refine ⟨fun j => ?_, this.2⟩
      by_cases hij : j = i
      · subst hij; exact this.1
      · rw [(local_pc h j hij).1]; exact k.pc j
    · simp only [Option.map_eq_some_iff] at h
      obtain ⟨fl, h1, h2⟩ := h
      subst h2
      exact ⟨k.pc, k.head⟩

theorem untaken_run {B : Nat} : ∀ {acts : List (Act α)} {s s' : St α}, Untaken s → (∀ a ∈ acts, ∀ i, a ≠ .start i .deq ∧ a ≠ .start i .deqM ∧ ∀ e, a ≠ .start i (.rewind e)) →
    run B s acts = some s' → Untaken s'
  | [], s, s', k, _, h => by cases h; exact k
  | a :: as, s, s', k, ha, h => by
    simp only [run, Option.bind_eq_some_iff] at h
    obtain ⟨s1, h1, h2⟩ := h
    exact untaken_run (untaken_step k h1 (ha a (by simp))) (fun x hx => ha x (by simp [hx])) h2

theorem untaken_init : Untaken (init α) := ⟨fun _ => rfl, fun _ => rfl⟩

end Queue
end Salticidae
