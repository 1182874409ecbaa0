import Verif.Lemmas.Races
import Verif.Lemmas.PoolV4
namespace Salticidae
namespace Races
open Spec.Races
open Pool (Cfg Task Upd)

/-! ### What a step of the pool adds to the queues -/

/-- `s'` has the queues of `s`, with closures that satisfy `N` and `U` appended. -/
def Grow (s s' : Pool.St) (N : Nat → Task → Prop) (U : Upd → Prop) : Prop :=
  (∀ w, ∃ l, s'.wq w = s.wq w ++ l ∧ ∀ t ∈ l, N w t) ∧ ∃ l, s'.uq = s.uq ++ l ∧ ∀ u ∈ l, U u

theorem grow_same {s s' : Pool.St} {N : Nat → Task → Prop} {U : Upd → Prop} (h1 : s'.wq = s.wq) (h2 : s'.uq = s.uq) : Grow s s' N U :=
  ⟨fun w => ⟨[], by simp [h1], by simp⟩, [], by simp [h2], by simp⟩

theorem grow_trans {s s' s'' : Pool.St} {N : Nat → Task → Prop} {U : Upd → Prop} (h1 : Grow s s' N U) (h2 : Grow s' s'' N U) : Grow s s'' N U := by
  refine ⟨fun w => ?_, ?_⟩
  · obtain ⟨l, e, h⟩ := h1.1 w
    obtain ⟨l', e', h'⟩ := h2.1 w
    exact ⟨l ++ l', by rw [e', e, List.append_assoc], by simpa [or_imp, forall_and] using ⟨h, h'⟩⟩
  · obtain ⟨l, e, h⟩ := h1.2
    obtain ⟨l', e', h'⟩ := h2.2
    exact ⟨l ++ l', by rw [e', e, List.append_assoc], by simpa [or_imp, forall_and] using ⟨h, h'⟩⟩

theorem grow_post {s s1 : Pool.St} {N : Nat → Task → Prop} {U : Upd → Prop} {w : Nat} {t : Task} (h : Grow s s1 N U) (hN : N w t) :
    Grow s (Pool.post s1 w t) N U := by
  refine grow_trans h ⟨fun w' => ?_, [], by simp [Pool.post], by simp⟩
  by_cases e : w' = w
  · subst e; exact ⟨[t], by simp [Pool.post], by simpa using hN⟩
  · exact ⟨[], by simp [Pool.post, Pool.upd_ne _ _ e], by simp⟩

theorem grow_rep {s s1 : Pool.St} {N : Nat → Task → Prop} {U : Upd → Prop} {u : Upd} (h : Grow s s1 N U) (hU : U u) :
    Grow s { s1 with uq := s1.uq ++ [u] } N U :=
  grow_trans h ⟨fun w => ⟨[], by simp, by simp⟩, [u], rfl, by simpa using hU⟩

theorem grow_wt {s s1 : Pool.St} {N : Nat → Task → Prop} {U : Upd → Prop} {c : Nat} (h : Grow s s1 N U) (hN : ∀ w, N w (.wterm c)) :
    Grow s (Pool.workerTerminate s1 c) N U := by
  unfold Pool.workerTerminate
  split
  · exact grow_post (grow_trans h (grow_same rfl rfl)) (hN _)
  · exact grow_trans h (grow_same rfl rfl)

theorem grow_dt {s s1 : Pool.St} {N : Nat → Task → Prop} {U : Upd → Prop} {c : Nat} (h : Grow s s1 N U) (hN : ∀ w, N w (.wterm c))
    (hM : ∀ w, N w (.dterm c)) : Grow s (Pool.dispTerminate s1 c) N U := by
  unfold Pool.dispTerminate
  split
  · exact grow_wt h hN
  · exact grow_post (grow_trans h (grow_same rfl rfl)) (hM _)

theorem grow_del {s s1 : Pool.St} {N : Nat → Task → Prop} {U : Upd → Prop} {c : Nat} (h : Grow s s1 N U) (hU : U ⟨c, false⟩) :
    Grow s (Pool.delConn s1 c) N U := by
  have := grow_rep (u := ⟨c, false⟩) h hU
  exact grow_trans this (grow_same rfl rfl)

theorem mem_retag {α : Type} {n : Nat} {base : List (α × Nat)} {q0 l q : List α} (h0 : base.map (·.1) = q0) (h : q = q0 ++ l)
    {t : α} {p : Nat} : (t, p) ∈ retag n base q ↔ (t, p) ∈ base ∨ (p = n ∧ t ∈ l) := by
  have hl : base.length = q0.length := by rw [← h0]; simp
  unfold retag
  rw [h, hl, List.drop_left]
  simp only [List.mem_append, List.mem_map, Prod.mk.injEq]
  grind

theorem map_retag {α : Type} {n : Nat} {base : List (α × Nat)} {q0 l q : List α} (h0 : base.map (·.1) = q0) (h : q = q0 ++ l) :
    (retag n base q).map (·.1) = q := by
  have hl : base.length = q0.length := by rw [← h0]; simp
  unfold retag
  rw [h, hl, List.drop_left]
  simp [h0, Function.comp_def]

/-! ### The invariant of the whole pool -/

def data (r : St) (c : Nat) : D where
  worker := (r.pool.conn c).worker
  fed := (r.pool.conn c).fed
  term := (r.pool.conn c).term
  closed := (r.pool.conn c).closed != 0
  handshake := (r.pool.conn c).handshake
  told := !(r.pool.conn c).cbs.isEmpty
  held := r.held c
  born := r.born c
  feedT w p := (.feed c, p) ∈ r.tq w
  setupT p := (.setup c, p) ∈ r.tq 0
  delT p := (.del c, p) ∈ r.tq 0
  updT p := ∃ b, (⟨c, b⟩, p) ∈ r.tu

structure All (g : Cfg) (r : St) : Prop where
  life : Pool.ConnLife g r.pool
  tq : ∀ w, (r.tq w).map (·.1) = r.pool.wq w
  tu : r.tu.map (·.1) = r.pool.uq
  ri : ∀ c, c < r.pool.n → RI g.tls c r.log (data r c)
  acc : ∀ x i, Acc r.log x i → x.1 < r.pool.n
  held : ∀ c, r.pool.n ≤ c → r.held c = false
  free : RaceFree r.log

theorem all_init (g : Cfg) : All g init where
  life := Pool.connLife_init g
  tq := by simp [init, Pool.init]
  tu := by simp [init, Pool.init]
  ri := by simp [init, Pool.init]
  acc := by simp [init, Acc]
  held := by simp [init]
  free := by simp [init, RaceFree]

/-- The event touches no connection but `c`. -/
def OnlyConn (c : Nat) (e : Ev) : Prop := ∀ x, x ∈ e.reads ∨ x ∈ e.writes → x.1 = c

/-- The queues after the step's own closure is taken. -/
structure Popped (r : St) (a : Pool.Act) (s0 : Pool.St) : Prop where
  wq : ∀ w, (left r a w).map (·.1) = s0.wq w
  uq : (leftU r a).map (·.1) = s0.uq

theorem left_sub {r : St} {a : Pool.Act} {w : Nat} {x : Task × Nat} (h : x ∈ left r a w) : x ∈ r.tq w := by
  unfold left at h
  split at h
  · split at h
    · exact List.mem_of_mem_tail h
    · exact h
  · exact h
theorem leftU_sub {r : St} {a : Pool.Act} {x : Upd × Nat} (h : x ∈ leftU r a) : x ∈ r.tu := by
  unfold leftU at h
  split at h
  · exact List.mem_of_mem_tail h
  · exact h

/-- A step about connection `c`. -/
theorem wrap {g : Cfg} {r : St} {a : Pool.Act} {s0 s' : Pool.St} {c : Nat} {N : Nat → Task → Prop} {U : Upd → Prop}
    (h : All g r) (hv : Pool.ConnLife g s') (hp : Popped r a s0) (hg : Grow s0 s' N U) (hN : ∀ w t, N w t → t.conn = c)
    (hU : ∀ u, U u → u.c = c) (hconn : ∀ d, d ≠ c → s'.conn d = r.pool.conn d) (hn : s'.n = r.pool.n) (hc : c < r.pool.n)
    (he : OnlyConn c (event g r r.log.length a))
    (hself : (∀ w t p, (t, p) ∈ (next g r a s').tq w → (t, p) ∈ left r a w ∨ (p = r.log.length ∧ N w t)) →
      (∀ u p, (u, p) ∈ (next g r a s').tu → (u, p) ∈ leftU r a ∨ (p = r.log.length ∧ U u)) →
      (∀ w t p, (t, p) ∈ (next g r a s').tq w → t ∈ s'.wq w) →
      RI g.tls c (r.log ++ [event g r r.log.length a]) (data (next g r a s') c) ∧ SafeC c r.log (event g r r.log.length a)) :
    All g (next g r a s') := by
  have k1 : ∀ w t p, (t, p) ∈ (next g r a s').tq w → (t, p) ∈ left r a w ∨ (p = r.log.length ∧ N w t) := by
    intro w t p hm
    obtain ⟨l, e, hl⟩ := hg.1 w
    rcases (mem_retag (hp.wq w) e).1 hm with h | ⟨h1, h2⟩
    · exact .inl h
    · exact .inr ⟨h1, hl _ h2⟩
  have k2 : ∀ u p, (u, p) ∈ (next g r a s').tu → (u, p) ∈ leftU r a ∨ (p = r.log.length ∧ U u) := by
    intro u p hm
    obtain ⟨l, e, hl⟩ := hg.2
    rcases (mem_retag hp.uq e).1 hm with h | ⟨h1, h2⟩
    · exact .inl h
    · exact .inr ⟨h1, hl _ h2⟩
  have k3 : ∀ w t p, (t, p) ∈ (next g r a s').tq w → t ∈ s'.wq w := by
    intro w t p hm
    obtain ⟨l, e, _⟩ := hg.1 w
    rw [← map_retag (n := r.log.length) (hp.wq w) e]
    exact List.mem_map.2 ⟨_, hm, rfl⟩
  obtain ⟨hs1, hs2⟩ := hself k1 k2 k3
  have hother : ∀ d, d < r.pool.n → d ≠ c → RI g.tls d (r.log ++ [event g r r.log.length a]) (data (next g r a s') d) := by
    intro d hd hdc
    refine (k_nothing (h.ri d hd) ⟨fun l hl => ?_, fun l hl => ?_⟩ ⟨?_, ?_, ?_, ?_, ?_, ?_, ?_, ?_⟩ ?_ ?_ ?_ ?_).1
    · exact absurd (he _ (.inl hl)) hdc
    · exact absurd (he _ (.inr hl)) hdc
    · simp [data, next, hconn d hdc]
    · simp [data, next, hconn d hdc]
    · simp [data, next, hconn d hdc]
    · simp [data, next, hconn d hdc]
    · simp [data, next, hconn d hdc]
    · simp [data, next, hconn d hdc]
    · simp [data, next]
    · simp [data, next, hn]
    · intro w p hm
      rcases k1 _ _ _ hm with h | ⟨_, h⟩
      · exact left_sub h
      · exact absurd (hN _ _ h) hdc
    · intro p hm
      rcases k1 _ _ _ hm with h | ⟨_, h⟩
      · exact left_sub h
      · exact absurd (hN _ _ h) hdc
    · intro p hm
      rcases k1 _ _ _ hm with h | ⟨_, h⟩
      · exact left_sub h
      · exact absurd (hN _ _ h) hdc
    · rintro p ⟨b, hm⟩
      rcases k2 _ _ hm with h | ⟨_, h⟩
      · exact ⟨b, leftU_sub h⟩
      · exact absurd (hU _ h) hdc
  refine ⟨hv, fun w => ?_, ?_, fun d hd => ?_, fun x i hx => ?_, fun d hd => ?_, ?_⟩
  · obtain ⟨l, e, _⟩ := hg.1 w
    exact map_retag (hp.wq w) e
  · obtain ⟨l, e, _⟩ := hg.2
    exact map_retag hp.uq e
  · by_cases e : d = c
    · subst e; exact hs1
    · exact hother d (by rw [← hn]; exact hd) e
  · rcases acc_append.1 hx with h1 | ⟨_, h1⟩
    · have := h.acc x i h1
      rw [show (next g r a s').pool.n = r.pool.n from hn]; exact this
    · rw [he x h1, show (next g r a s').pool.n = r.pool.n from hn]; exact hc
  · exact h.held d (by rw [← hn]; exact hd)
  · refine raceFree_append h.free fun x i => ?_
    obtain ⟨y, l⟩ := x
    constructor
    · intro h1 h2
      obtain rfl : y = c := he _ (.inr h1)
      exact (hs2 l i).1 h1 h2
    · intro h1 h2
      obtain rfl : y = c := he _ (.inl h1)
      exact (hs2 l i).2 h1 h2

/-- A step that creates connection `r.pool.n`. -/
theorem wrapNew {g : Cfg} {r : St} {a : Pool.Act} {s' : Pool.St} {N : Nat → Task → Prop}
    (h : All g r) (hv : Pool.ConnLife g s') (hp : Popped r a r.pool) (hg : Grow r.pool s' N (fun _ => False))
    (hN : ∀ w t, N w t → t = .feed r.pool.n ∨ t = .dterm r.pool.n)
    (hconn : ∀ d, d ≠ r.pool.n → s'.conn d = r.pool.conn d) (hn : s'.n = r.pool.n + 1)
    (hf : (s'.conn r.pool.n).fed = false) (hcb : (s'.conn r.pool.n).cbs = [])
    (ht : (event g r r.log.length a).thread = .w 0) (hw : (event g r r.log.length a).writes = all r.pool.n)
    (he : OnlyConn r.pool.n (event g r r.log.length a)) :
    All g (next g r a s') := by
  have k1 : ∀ w t p, (t, p) ∈ (next g r a s').tq w → (t, p) ∈ left r a w ∨ (p = r.log.length ∧ N w t) := by
    intro w t p hm
    obtain ⟨l, e, hl⟩ := hg.1 w
    rcases (mem_retag (hp.wq w) e).1 hm with h | ⟨h1, h2⟩
    · exact .inl h
    · exact .inr ⟨h1, hl _ h2⟩
  have k2 : ∀ u p, (u, p) ∈ (next g r a s').tu → (u, p) ∈ leftU r a := by
    intro u p hm
    obtain ⟨l, e, hl⟩ := hg.2
    rcases (mem_retag hp.uq e).1 hm with h | ⟨h1, h2⟩
    · exact h
    · exact (hl _ h2).elim
  have hold : ∀ w t p, (t, p) ∈ left r a w → t.conn < r.pool.n := by
    intro w t p hm
    refine h.life.v2.v1.base.valid w t ?_
    rw [← h.tq w]
    exact List.mem_map.2 ⟨_, left_sub hm, rfl⟩
  have holdU : ∀ u p, (u, p) ∈ leftU r a → u.c < r.pool.n := by
    intro u p hm
    refine h.life.v2.v1.base.uvalid u ?_
    rw [← h.tu]
    exact List.mem_map.2 ⟨_, leftU_sub hm, rfl⟩
  have hnew : RI g.tls r.pool.n (r.log ++ [event g r r.log.length a]) (data (next g r a s') r.pool.n) ∧
      SafeC r.pool.n r.log (event g r r.log.length a) := by
    refine k_new (fun l i ha => ?_) ht (fun w p hm => ?_) (fun p hm => ?_) (fun p hm => ?_) ?_ ?_ ?_ ?_ ?_ ?_
    · have := h.acc _ _ ha; simp at this
    · rcases k1 _ _ _ hm with h' | ⟨h', _⟩
      · have := hold _ _ _ h'; simp [Pool.Task.conn] at this
      · exact h'
    · rcases k1 _ _ _ hm with h' | ⟨_, h'⟩
      · have := hold _ _ _ h'; simp [Pool.Task.conn] at this
      · rcases hN _ _ h' with h' | h' <;> cases h'
    · rcases k1 _ _ _ hm with h' | ⟨_, h'⟩
      · have := hold _ _ _ h'; simp [Pool.Task.conn] at this
      · rcases hN _ _ h' with h' | h' <;> cases h'
    · rintro p ⟨b, hm⟩
      have := holdU _ _ (k2 _ _ hm); simp at this
    · exact hf
    · simp [data, next, hcb]
    · exact h.held _ (Nat.le_refl _)
    · simp [data, next, hn]
    · rw [hw]; simp [all]
  have hother : ∀ d, d < r.pool.n → RI g.tls d (r.log ++ [event g r r.log.length a]) (data (next g r a s') d) := by
    intro d hd
    have hdc : d ≠ r.pool.n := by omega
    refine (k_nothing (h.ri d hd) ⟨fun l hl => ?_, fun l hl => ?_⟩ ⟨?_, ?_, ?_, ?_, ?_, ?_, ?_, ?_⟩ ?_ ?_ ?_ ?_).1
    · exact absurd (he _ (.inl hl)) hdc
    · exact absurd (he _ (.inr hl)) hdc
    · simp [data, next, hconn d hdc]
    · simp [data, next, hconn d hdc]
    · simp [data, next, hconn d hdc]
    · simp [data, next, hconn d hdc]
    · simp [data, next, hconn d hdc]
    · simp [data, next, hconn d hdc]
    · simp [data, next]
    · simp [data, next, hn, Pool.upd_ne _ _ hdc]
    · intro w p hm
      rcases k1 _ _ _ hm with h | ⟨_, h⟩
      · exact left_sub h
      · rcases hN _ _ h with h | h <;> simp at h <;> exact absurd h hdc
    · intro p hm
      rcases k1 _ _ _ hm with h | ⟨_, h⟩
      · exact left_sub h
      · rcases hN _ _ h with h | h <;> simp at h
    · intro p hm
      rcases k1 _ _ _ hm with h | ⟨_, h⟩
      · exact left_sub h
      · rcases hN _ _ h with h | h <;> simp at h
    · rintro p ⟨b, hm⟩
      exact ⟨b, leftU_sub (k2 _ _ hm)⟩
  refine ⟨hv, fun w => ?_, ?_, fun d hd => ?_, fun x i hx => ?_, fun d hd => ?_, ?_⟩
  · obtain ⟨l, e, _⟩ := hg.1 w
    exact map_retag (hp.wq w) e
  · obtain ⟨l, e, _⟩ := hg.2
    exact map_retag hp.uq e
  · by_cases e : d = r.pool.n
    · subst e; exact hnew.1
    · have : d < r.pool.n + 1 := by rw [← hn]; exact hd
      exact hother d (by omega)
  · rw [show (next g r a s').pool.n = r.pool.n + 1 from hn]
    rcases acc_append.1 hx with h1 | ⟨_, h1⟩
    · have := h.acc x i h1; omega
    · rw [he x h1]; omega
  · have : r.pool.n + 1 ≤ d := by rw [← hn]; exact hd
    exact h.held d (by omega)
  · refine raceFree_append h.free fun x i => ?_
    obtain ⟨y, l⟩ := x
    constructor
    · intro h1 h2
      obtain rfl : y = r.pool.n := he _ (.inr h1)
      exact (hnew.2 l i).1 h1 h2
    · intro h1 h2
      obtain rfl : y = r.pool.n := he _ (.inl h1)
      exact (hnew.2 l i).2 h1 h2

/-- A step that concerns no connection. -/
theorem wrapIdle {g : Cfg} {r : St} {a : Pool.Act} {s' : Pool.St} (h : All g r) (hv : Pool.ConnLife g s') (hp : Popped r a r.pool)
    (h1 : s'.wq = r.pool.wq) (h2 : s'.uq = r.pool.uq) (h3 : s'.conn = r.pool.conn) (h4 : s'.n = r.pool.n)
    (hr : (event g r r.log.length a).reads = []) (hw : (event g r r.log.length a).writes = []) : All g (next g r a s') := by
  have k1 : ∀ w t p, (t, p) ∈ (next g r a s').tq w → (t, p) ∈ r.tq w := by
    intro w t p hm
    rcases (mem_retag (l := []) (hp.wq w) (by rw [h1]; simp)).1 hm with h | ⟨_, h⟩
    · exact left_sub h
    · simp at h
  have k2 : ∀ u p, (u, p) ∈ (next g r a s').tu → (u, p) ∈ r.tu := by
    intro u p hm
    rcases (mem_retag (l := []) hp.uq (by rw [h2]; simp)).1 hm with h | ⟨_, h⟩
    · exact leftU_sub h
    · simp at h
  refine ⟨hv, fun w => map_retag (l := []) (hp.wq w) (by rw [h1]; simp), map_retag (l := []) hp.uq (by rw [h2]; simp), fun d hd => ?_,
    fun x i hx => ?_, fun d hd => ?_, ?_⟩
  · have hd' : d < r.pool.n := by rw [← h4]; exact hd
    refine (k_nothing (h.ri d hd') ⟨by simp [hr], by simp [hw]⟩ ⟨?_, ?_, ?_, ?_, ?_, ?_, ?_, ?_⟩ ?_ ?_ ?_ ?_).1
    · simp [data, next, h3]
    · simp [data, next, h3]
    · simp [data, next, h3]
    · simp [data, next, h3]
    · simp [data, next, h3]
    · simp [data, next, h3]
    · simp [data, next]
    · simp [data, next, h4]
    · exact fun w p hm => k1 _ _ _ hm
    · exact fun p hm => k1 _ _ _ hm
    · exact fun p hm => k1 _ _ _ hm
    · rintro p ⟨b, hm⟩; exact ⟨b, k2 _ _ hm⟩
  · rw [show (next g r a s').pool.n = r.pool.n from h4]
    rcases acc_append.1 hx with h1 | ⟨_, h1⟩
    · exact h.acc x i h1
    · simp [hr, hw] at h1
  · exact h.held d (by rw [← h4]; exact hd)
  · refine raceFree_append h.free fun x i => ?_
    simp [hr, hw]

theorem popped_other {g : Cfg} {r : St} {a : Pool.Act} (h : All g r) (h1 : ∀ w f, a ≠ .exec w f) (h2 : ∀ b, a ≠ .user b) : Popped r a r.pool := by
  constructor
  · intro w
    unfold left; split
    · exact absurd rfl (h1 _ _)
    · exact h.tq w
  · unfold leftU; split
    · exact absurd rfl (h2 _)
    · exact h.tu

theorem popped_exec {g : Cfg} {r : St} {w : Nat} {f : Bool} {t : Task} {ts : List Task} (h : All g r) (hq : r.pool.wq w = t :: ts) :
    Popped r (.exec w f) { r.pool with wq := Pool.upd r.pool.wq w ts } := by
  constructor
  · intro w'
    simp only [left]
    by_cases e : w = w'
    · subst e
      rw [if_pos rfl, List.map_tail, h.tq w, hq]; simp
    · rw [if_neg e, h.tq w']; simp [Pool.upd_ne _ _ (Ne.symm e)]
  · exact h.tu

theorem popped_user {g : Cfg} {r : St} {b : Bool} {u : Upd} {us : List Upd} (h : All g r) (hq : r.pool.uq = u :: us) :
    Popped r (.user b) { r.pool with uq := us } := by
  constructor
  · exact h.tq
  · simp only [leftU]; rw [List.map_tail, h.tu, hq]; rfl

theorem head_tag {α : Type} {l : List (α × Nat)} {t : α} {ts : List α} (h : l.map (·.1) = t :: ts) : ∃ p tl, l = (t, p) :: tl := by
  cases l with
  | nil => simp at h
  | cons x tl =>
    obtain ⟨t', p⟩ := x
    simp at h
    exact ⟨p, tl, by rw [h.1]⟩

end Races
end Salticidae
