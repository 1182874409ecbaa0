import Verif.Spec.ConnRef
import Verif.Lemmas.PoolLoad
import Verif.Lemmas.PoolV3
namespace Salticidae
namespace Pool

/-- Connections that have not been created are not touched. -/
theorem step_far {g : Cfg} {s s' : St} {a : Act} (hi : Inv none s) (h : step g s a = some s') (d : Nat) (hd : s'.n ≤ d) :
    view s' d = view s d := by
  have hle := (step_view hi h).1
  cases a with
  | accept fd =>
    simp only [step] at h
    split at h <;> cases h
    have hne : d ≠ s.n := by simp only [post] at hd; omega
    rw [view_post_ne _ _ (by exact hne)]
    simp [view, upd_ne _ _ hne]
  | acceptFail => simp only [step] at h; split at h <;> cases h; rfl
  | listen => simp only [step] at h; cases h; rfl
  | connect fd ok =>
    simp only [step] at h
    split at h <;> cases h
    have hne : d ≠ s.n := by cases ok <;> simp [dispTerminate_n] at hd <;> omega
    cases ok with
    | true => simp [view, upd_ne _ _ hne]
    | false => simp only [Bool.false_eq_true, if_false]; rw [view_dispTerm_ne _ hne]; simp [view, upd_ne _ _ hne]
  | connReady c =>
    simp only [step] at h
    split at h <;> cases h
    rename_i hc
    have hne : d ≠ c := by have := hc.1; simp only [post, setConn] at hle hd; omega
    rw [view_post_ne _ _ (by exact hne), view_set_ne _ _ hne]
  | connFail c timeout =>
    simp only [step] at h
    split at h <;> cases h
    rename_i hc
    have hne : d ≠ c := by have := hc.1; omega
    rw [view_dispTerm_ne _ hne, view_set_ne _ _ hne]
  | terminate c =>
    simp only [step] at h
    split at h <;> cases h
    rename_i hc
    have hne : d ≠ c := by omega
    rw [view_post_ne _ _ (by exact hne), view_set_ne _ _ hne]
  | exec w fail =>
    simp only [step] at h
    rcases hq : s.wq w with _ | ⟨t, ts⟩
    · rw [hq] at h; cases h
    · rw [hq] at h; cases h
      have hc : t.conn < s.n := hi.valid w t (by rw [hq]; simp)
      have hne : d ≠ t.conn := by omega
      rw [view_exec_ne hne, view_pop_ne hq hne]
  | user r =>
    simp only [step] at h
    rcases hq : s.uq with _ | ⟨⟨c, connected⟩, us⟩
    · rw [hq] at h; cases h
    · rw [hq] at h
      simp only [Option.some.injEq] at h
      have hc : c < s.n := hi.uvalid ⟨c, connected⟩ (by rw [hq]; simp)
      have hne : d ≠ c := by omega
      have hdu : s.uq.filter (fun u => u.c = d) = us.filter (fun u => u.c = d) := by
        simp [hq, List.filter_cons]; intro h'; exact absurd h'.symm hne
      subst h
      split
      · split
        · rw [view_post_ne _ _ (by exact hne), view_set_ne _ _ hne]; simp [view, hdu]
        · simp [view, hdu, setConn, upd_ne _ _ hne]
      · rw [view_set_ne _ _ hne]; simp [view, hdu]
  | readable c =>
    simp only [step] at h
    split at h <;> cases h
    rename_i hc
    have hne : d ≠ c := by have := hc.1; omega
    split
    · rw [view_set_ne _ _ hne]
    · rfl
  | writable c =>
    simp only [step] at h
    split at h <;> cases h
    rename_i hc
    have hne : d ≠ c := by have := hc.1; omega
    rw [view_set_ne _ _ hne]
  | hsDone c =>
    simp only [step] at h
    split at h <;> cases h
    rename_i hc
    have hne : d ≠ c := by have := hc.1; omega
    rw [view_post_ne _ _ (by exact hne), view_set_ne _ _ hne]
  | ioError c =>
    simp only [step] at h
    split at h <;> cases h
    rename_i hc
    have hne : d ≠ c := by have := hc.1; omega
    rw [view_workerTerm_ne _ hne]
  | sendBuf c =>
    simp only [step] at h
    split at h <;> cases h
    rename_i hc
    have hne : d ≠ c := by have := hc.1; omega
    rw [view_set_ne _ _ hne]

theorem workerTerminate_pool (s : St) (c : Nat) : (workerTerminate s c).pool = s.pool := by
  unfold workerTerminate; split <;> rfl
theorem dispTerminate_pool (s : St) (c : Nat) : (dispTerminate s c).pool = s.pool := by
  unfold dispTerminate; split
  · exact workerTerminate_pool s c
  · rfl

/-- Only new connections enter the table of the pool. -/
theorem step_pool {g : Cfg} {s s' : St} {a : Act} (h : step g s a = some s') (e : Nat × Nat) (he : e ∈ s'.pool) :
    e ∈ s.pool ∨ (s.n ≤ e.2 ∧ e.2 < s'.n) := by
  cases a with
  | accept fd =>
    simp only [step] at h
    split at h <;> cases h
    simp only [post, List.mem_append, List.mem_singleton] at he ⊢
    rcases he with he | rfl
    · exact .inl he
    · exact .inr ⟨Nat.le_refl _, Nat.lt_succ_self _⟩
  | connect fd ok =>
    simp only [step] at h
    split at h <;> cases h
    have hp : e ∈ s.pool ++ [(fd, s.n)] := by
      cases ok with
      | true => exact he
      | false => simp only [Bool.false_eq_true, if_false, dispTerminate_pool] at he; exact he
    simp only [List.mem_append, List.mem_singleton] at hp
    rcases hp with hp | rfl
    · exact .inl hp
    · refine .inr ⟨Nat.le_refl _, ?_⟩
      cases ok <;> simp [dispTerminate_n]
  | exec w fail =>
    simp only [step] at h
    rcases hq : s.wq w with _ | ⟨t, ts⟩
    · rw [hq] at h; cases h
    · rw [hq] at h; cases h
      left
      cases t <;> simp only [execTask, feed] at he <;> (repeat' split at he) <;>
        simp only [dispTerminate_pool, workerTerminate_pool, post, setConn, workerTeardown, delConn, releaseConn] at he <;>
        first | exact he | exact List.mem_of_mem_eraseP he
  | user r =>
    left
    simp only [step] at h
    split at h
    · cases h
    · simp only [Option.some.injEq] at h
      subst h
      split at he <;> (try split at he) <;> exact he
  | readable c =>
    left
    simp only [step] at h
    split at h <;> cases h
    split at he <;> exact he
  | connFail c t => left; simp only [step] at h; split at h <;> cases h; simp only [dispTerminate_pool] at he; exact he
  | ioError c => left; simp only [step] at h; split at h <;> cases h; simp only [workerTerminate_pool] at he; exact he
  | listen => left; simp only [step] at h; cases h; exact he
  | acceptFail => left; simp only [step] at h; split at h <;> cases h; exact he
  | connReady c => left; simp only [step] at h; split at h <;> cases h; exact he
  | terminate c => left; simp only [step] at h; split at h <;> cases h; exact he
  | writable c => left; simp only [step] at h; split at h <;> cases h; exact he
  | hsDone c => left; simp only [step] at h; split at h <;> cases h; exact he
  | sendBuf c => left; simp only [step] at h; split at h <;> cases h; exact he

theorem workerTerminate_n (s : St) (c : Nat) : (workerTerminate s c).n = s.n := by
  unfold workerTerminate; split <;> rfl

/-- Only an active connect makes a connection that waits to be established. -/
theorem step_ev {g : Cfg} {s s' : St} {a : Act} (h : step g s a = some s') (c : Nat) (h1 : s.n ≤ c) (h2 : c < s'.n)
    (hx : (s'.conn c).evConn = true) : ∃ fd, a = .connect fd true := by
  cases a with
  | accept fd =>
    simp only [step] at h
    split at h <;> cases h
    have hcn : c = s.n := by simp [post] at h2; omega
    subst hcn
    simp [post, newConn] at hx
  | connect fd ok =>
    cases ok with
    | true => exact ⟨fd, rfl⟩
    | false =>
      simp only [step] at h
      split at h <;> cases h
      have hcn : c = s.n := by simp [dispTerminate_n] at h2; omega
      subst hcn
      simp [dispTerminate, post, setConn, newConn] at hx
  | exec w fail =>
    simp only [step] at h
    rcases hq : s.wq w with _ | ⟨t, ts⟩
    · rw [hq] at h; cases h
    · rw [hq] at h; cases h
      exfalso
      cases t <;> simp only [execTask, feed] at h2 <;> (repeat' split at h2) <;>
        simp only [dispTerminate_n, workerTerminate_n, post, setConn, workerTeardown, delConn, releaseConn] at h2 <;> omega
  | user r =>
    exfalso
    simp only [step] at h
    split at h
    · cases h
    · simp only [Option.some.injEq] at h
      subst h
      split at h2 <;> (try split at h2) <;> (have h3 : c < s.n := h2; omega)
  | readable c' =>
    exfalso
    simp only [step] at h
    split at h <;> cases h
    split at h2 <;> (have h3 : c < s.n := h2; omega)
  | connFail c' t => exfalso; simp only [step] at h; split at h <;> cases h; simp only [dispTerminate_n, setConn] at h2; omega
  | ioError c' => exfalso; simp only [step] at h; split at h <;> cases h; simp only [workerTerminate_n] at h2; omega
  | listen => exfalso; simp only [step] at h; cases h; simp only at h2; omega
  | acceptFail => exfalso; simp only [step] at h; split at h <;> cases h; simp only at h2; omega
  | connReady c' => exfalso; simp only [step] at h; split at h <;> cases h; simp only [post, setConn] at h2; omega
  | terminate c' => exfalso; simp only [step] at h; split at h <;> cases h; simp only [post, setConn] at h2; omega
  | writable c' => exfalso; simp only [step] at h; split at h <;> cases h; simp only [setConn] at h2; omega
  | hsDone c' => exfalso; simp only [step] at h; split at h <;> cases h; simp only [post, setConn] at h2; omega
  | sendBuf c' => exfalso; simp only [step] at h; split at h <;> cases h; simp only [setConn] at h2; omega

end Pool
namespace ConnRef
open Pool PoolMsg

/-- `held`, as a proposition. -/
def Held (g : Cfg) (s : RSt) (c : Nat) : Prop :=
  (∃ e ∈ s.m.st.pool, e.2 = c) ∨ (∃ w ∈ workers g, ∃ t ∈ s.m.st.wq w, t.conn = c) ∨ (∃ u ∈ s.m.st.uq, u.c = c) ∨ c ∈ s.m.mq ∨
  (∃ e ∈ s.table, e.2 = c) ∨ s.dial c = true ∨ (s.m.st.conn c).sock = true ∨ (s.m.st.conn c).sendOn = true ∨ s.timer c = true ∨
  s.m.poll c = true ∨ s.user c ≠ 0

theorem about_eq (t : Task) : about t = t.conn := by cases t <;> rfl

theorem waits_iff (g : Cfg) (s : RSt) (c : Nat) : waits g s c = true ↔
    (∃ w ∈ workers g, ∃ t ∈ s.m.st.wq w, t.conn = c) ∨ (∃ u ∈ s.m.st.uq, u.c = c) ∨ c ∈ s.m.mq := by
  simp only [waits, about_eq, Bool.or_eq_true, List.any_eq_true, decide_eq_true_eq, or_assoc]
  simp

theorem held_iff (g : Cfg) (s : RSt) (c : Nat) : held g s c = true ↔ Held g s c := by
  simp only [held, Bool.or_eq_true, waits_iff, Held, or_assoc, List.any_eq_true, decide_eq_true_eq, bne_iff_ne, ne_eq]

theorem held_pool {g : Cfg} {s : RSt} {e : Nat × Nat} (h : e ∈ s.m.st.pool) : held g s e.2 = true := (held_iff ..).2 (.inl ⟨e, h, rfl⟩)
theorem held_task {g : Cfg} {s : RSt} {w : Nat} {t : Task} (hw : w ∈ workers g) (h : t ∈ s.m.st.wq w) : held g s t.conn = true :=
  (held_iff ..).2 (.inr (.inl ⟨w, hw, t, h, rfl⟩))
theorem held_upd {g : Cfg} {s : RSt} {u : Upd} (h : u ∈ s.m.st.uq) : held g s u.c = true :=
  (held_iff ..).2 (.inr (.inr (.inl ⟨u, h, rfl⟩)))
theorem held_msg {g : Cfg} {s : RSt} {c : Nat} (h : c ∈ s.m.mq) : held g s c = true := (held_iff ..).2 (.inr (.inr (.inr (.inl h))))
theorem held_dial {g : Cfg} {s : RSt} {c : Nat} (h : s.dial c = true) : held g s c = true := by simp [held, h]
theorem held_sock {g : Cfg} {s : RSt} {c : Nat} (h : (s.m.st.conn c).sock = true) : held g s c = true := by simp [held, h]
theorem held_poll {g : Cfg} {s : RSt} {c : Nat} (h : s.m.poll c = true) : held g s c = true := by simp [held, h]
theorem held_user {g : Cfg} {s : RSt} {c : Nat} (h : s.user c ≠ 0) : held g s c = true := by simp [held, h]

/-- The accounts: connections with a handle exist, the others have been destroyed once; those to come have no handle. -/
structure Acc (g : Cfg) (s : RSt) : Prop where
  acc : ∀ c, c < s.m.st.n → s.gone c = if held g s c then 0 else 1
  far : ∀ c, s.m.st.n ≤ c → held g s c = false ∧ s.gone c = 0
  bad : s.bad = false

/-- Handles come from handles. -/
theorem acc_step {g : Cfg} {s s' : RSt} {a : RAct} (h : Acc g s) (he : effect g s a = some s') (hle : s.m.st.n ≤ s'.m.st.n)
    (hnew : ∀ c, s.m.st.n ≤ c → c < s'.m.st.n → held g s' c = true)
    (hgrow : ∀ c, held g s' c = true → held g s c = true ∨ (s.m.st.n ≤ c ∧ c < s'.m.st.n))
    (huse : ∀ c ∈ uses s a, held g s c = true) :
    ∃ r, rstep g s a = some r ∧ Acc g r ∧ r = { s' with gone := r.gone, bad := r.bad } := by
  have hcong : ∀ (x y) c, held g { s' with gone := x, bad := y } c = held g s' c := fun _ _ _ => rfl
  refine ⟨_, by rw [rstep, he]; rfl, ⟨fun c hc => ?_, fun c hc => ?_, ?_⟩, rfl⟩
  · simp only [hcong]
    by_cases e : c < s.m.st.n
    · rw [h.acc c e]
      have := hgrow c
      cases h1 : held g s c <;> cases h2 : held g s' c <;> simp [h1, h2] at this ⊢
      omega
    · have := h.far c (by omega)
      rw [this.1, this.2, hnew c (by omega) hc]; simp
  · simp only [hcong]
    have hc' : s'.m.st.n ≤ c := hc
    have := h.far c (by omega)
    have h2 : held g s' c = false := by
      cases e : held g s' c with
      | false => rfl
      | true => rcases hgrow c e with h1 | h1
                · rw [this.1] at h1; cases h1
                · omega
    rw [this.1, this.2, h2]; simp
  · simp only [Bool.or_eq_false_iff, h.bad, true_and]
    rw [List.any_eq_false]
    intro c hc
    have h1 := huse c hc
    have h2 : c < s.m.st.n := by
      rcases Nat.lt_or_ge c s.m.st.n with h2 | h2
      · exact h2
      · rw [(h.far c h2).1] at h1; cases h1
    have h3 := h.acc c h2
    rw [h1] at h3
    simp [h3]

/-- What is in the table after `hooks` was there, or has just been set up. -/
theorem mem_ups {g : Cfg} {e : Nat × Nat} : ∀ (ups : List Nat) (t : List (Nat × Nat)),
    e ∈ ups.foldl (fun t c => t.filter (fun e => e.1 != g.addr c) ++ [(g.addr c, c)]) t → e ∈ t ∨ (e.2 ∈ ups ∧ e.1 = g.addr e.2) := by
  intro ups
  induction ups with
  | nil => intro t h; exact .inl h
  | cons c ups ih =>
    intro t h
    rcases ih _ h with h | h
    · simp only [List.mem_append, List.mem_filter, List.mem_singleton] at h
      rcases h with h | rfl
      · exact .inl h.1
      · exact .inr (by simp)
    · exact .inr ⟨List.mem_cons_of_mem _ h.1, h.2⟩

theorem hooks_table {g : Cfg} {s : RSt} {m' : MSt} {e : Nat × Nat} (h : e ∈ (hooks g s m').table) :
    (e ∈ s.table ∧ ∀ c, c < m'.st.n → (m'.st.conn c).dDown ≠ (s.m.st.conn c).dDown → g.client = true → g.addr c ≠ e.1) ∨
    (e.1 = g.addr e.2 ∧ e.2 < m'.st.n ∧ (m'.st.conn e.2).dSetup ≠ (s.m.st.conn e.2).dSetup ∧ g.client = true) := by
  simp only [hooks] at h
  split at h
  rename_i hcl
  · rcases mem_ups _ _ h with h | h
    · left
      simp only [List.mem_filter, List.all_eq_true, List.mem_range, bne_iff_ne, ne_eq, and_imp] at h
      exact ⟨h.1, fun c hc hd _ => h.2 c hc hd⟩
    · right
      simp only [List.mem_filter, List.mem_range, bne_iff_ne, ne_eq] at h
      exact ⟨h.2, h.1.1, h.1.2, hcl⟩
  · rename_i hc
    exact .inl ⟨h, fun _ _ _ hc' => absurd hc' hc⟩

/-- If only connections with a handle (and new ones) are touched, no others get one. -/
theorem grow_of {g : Cfg} {s : RSt} {m' : MSt} {n' : Nat} (s' : RSt)
    (hn : n' = m'.st.n)
    (hm : s'.m = m') (ht : s'.table = (hooks g s m').table) (htm : s'.timer = (hooks g s m').timer)
    (hpool : ∀ e ∈ m'.st.pool, e ∈ s.m.st.pool ∨ (s.m.st.n ≤ e.2 ∧ e.2 < n'))
    (hview : ∀ c, view m'.st c = view s.m.st c ∨ held g s c = true ∨ (s.m.st.n ≤ c ∧ c < n'))
    (hmq : ∀ c ∈ m'.mq, c ∈ s.m.mq ∨ held g s c = true)
    (hpoll : ∀ c, m'.poll c = true → s.m.poll c = true ∨ held g s c = true)
    (hdial : ∀ c, s'.dial c = true → s.dial c = true ∨ held g s c = true ∨ (s.m.st.n ≤ c ∧ c < n'))
    (huser : ∀ c, s'.user c ≠ 0 → s.user c ≠ 0 ∨ held g s c = true ∨ (s.m.st.n ≤ c ∧ c < n'))
    (c : Nat) (h : held g s' c = true) : held g s c = true ∨ (s.m.st.n ≤ c ∧ c < n') := by
  rcases hview c with hv | hv
  · have hx : m'.st.conn c = s.m.st.conn c := congrArg V.x hv
    have hq : ∀ w, (m'.st.wq w).filter (fun t => t.conn = c) = (s.m.st.wq w).filter (fun t => t.conn = c) := fun w => congrFun (congrArg V.q hv) w
    have hu : m'.st.uq.filter (fun u => u.c = c) = s.m.st.uq.filter (fun u => u.c = c) := congrArg V.u hv
    rw [held_iff] at h
    rcases h with ⟨e, he, rfl⟩ | ⟨w, hw, t, ht', rfl⟩ | ⟨u, hu', rfl⟩ | h | ⟨e, he, rfl⟩ | h | h | h | h | h | h
    · rw [hm] at he
      exact (hpool e he).imp_left held_pool
    · rw [hm] at ht'
      have : t ∈ (m'.st.wq w).filter (fun t' => t'.conn = t.conn) := List.mem_filter.2 ⟨ht', by simp⟩
      rw [hq w] at this
      exact .inl (held_task hw (List.mem_filter.1 this).1)
    · rw [hm] at hu'
      have : u ∈ m'.st.uq.filter (fun u' => u'.c = u.c) := List.mem_filter.2 ⟨hu', by simp⟩
      rw [hu] at this
      exact .inl (held_upd (List.mem_filter.1 this).1)
    · rw [hm] at h
      exact .inl ((hmq c h).elim held_msg id)
    · rw [ht] at he
      rcases hooks_table he with h1 | h1
      · exact .inl ((held_iff ..).2 (.inr (.inr (.inr (.inr (.inl ⟨e, h1.1, rfl⟩))))))
      · rw [hx] at h1; exact absurd rfl h1.2.2.1
    · exact (hdial c h).elim (fun h => .inl (held_dial h)) id
    · rw [hm, hx] at h; exact .inl (held_sock h)
    · rw [hm, hx] at h; exact .inl (by simp [held, h])
    · rw [htm] at h
      simp only [hooks, hx, bne_self_eq_false, Bool.or_false, beq_self_eq_true, Bool.and_true] at h
      exact .inl (by simp [held, h])
    · rw [hm] at h
      exact .inl ((hpoll c h).elim held_poll id)
    · exact (huser c h).elim (fun h => .inl (held_user h)) id
  · exact hv

/-- What a step does to the fields of a connection that matter here. -/
structure VChange (g : Pool.Cfg) (c : Nat) (v v' : V) : Prop where
  ev : v'.x.evConn = true → v.x.evConn = true ∧ v'.x.dDown = v.x.dDown
  set : v'.x.dSetup ≠ v.x.dSetup → (∃ w, .setup c ∈ v.q w) ∧ v'.x.closed = v.x.closed
  wset : v'.x.wSetup ≠ v.x.wSetup → (∃ w, .feed c ∈ v.q w) ∨ v.x.sock = true
  send : v'.x.sendOn = true → v.x.sendOn = true ∨ (∃ w, .feed c ∈ v.q w) ∨ v.x.sock = true
  sendT : v'.x.sendOn = true → v'.x.term = v.x.term
  down : v'.x.wDown = v.x.wDown → v'.x.term = v.x.term
  ddown : v'.x.dDown = v.x.dDown → v'.x.closed = v.x.closed

theorem vDispTerm_same (v : V) (c : Nat) : ∃ b, (vDispTerm v c).x = { v.x with asked := b } := by
  unfold vDispTerm vWorkerTerm
  split
  · split <;> exact ⟨_, rfl⟩
  · exact ⟨_, rfl⟩
theorem vWorkerTerm_same (v : V) (c : Nat) : ∃ b, (vWorkerTerm v c).x = { v.x with asked := b } := by
  unfold vWorkerTerm
  split <;> exact ⟨_, rfl⟩

theorem vchange_same {g : Pool.Cfg} {c : Nat} {v v' : V} (b : Bool) (e : v'.x = { v.x with asked := b }) : VChange g c v v' := by
  constructor <;> simp_all

theorem vchange {g : Pool.Cfg} {c : Nat} {v v' : V} {a : Act} (h : VStep g c v v' a) : VChange g c v v' := by
  cases h with
  | exec w fail t ts hc hq hw =>
    have hm : t ∈ v.q w := by rw [hq]; simp
    cases t with
    | feed d =>
      cases hc
      have hf : ∃ w, Task.feed d ∈ v.q w := ⟨w, hm⟩
      simp only [Task.conn, vExec]
      split <;> constructor <;> simp_all [V.set, V.post, V.pop]
    | setup d =>
      cases hc
      have hf : ∃ w, Task.setup d ∈ v.q w := ⟨w, hm⟩
      simp only [Task.conn, vExec]
      split
      · obtain ⟨b, e⟩ := vDispTerm_same ((v.pop w).set { (v.pop w).x with dSetup := (v.pop w).x.dSetup + 1 }) d
        generalize vDispTerm ((v.pop w).set { (v.pop w).x with dSetup := (v.pop w).x.dSetup + 1 }) d = v' at e ⊢
        constructor <;> simp_all [V.set, V.pop]
      · constructor <;> simp_all [V.set, V.rep, V.pop]
    | wterm d =>
      simp only [vExec]
      split
      · constructor <;> simp_all [V.pop]
      · constructor <;> simp_all [V.set, V.post, V.pop, vTeardown]
    | dterm d =>
      simp only [vExec]
      split
      · constructor <;> simp_all [V.pop]
      · constructor <;> simp_all [V.set, V.rep, V.pop, vTeardown, vDel]
    | userTerm d =>
      obtain ⟨b, e⟩ := vDispTerm_same (v.pop w) c
      exact vchange_same b e
    | del d => constructor <;> simp_all [vExec, V.set, V.rep, V.pop, vDel]
    | approve d r =>
      simp only [vExec]
      split
      · constructor <;> simp_all [V.pop]
      · split
        · split
          · constructor <;> simp_all [V.set, V.pop]
          · obtain ⟨b, e⟩ := vWorkerTerm_same (v.pop w) c
            exact vchange_same b e
        · constructor <;> simp_all [V.set, V.pop]
  | connReady w he => constructor <;> simp_all [V.set, V.post]
  | connFail t he =>
    obtain ⟨b, e⟩ := vDispTerm_same (v.set { v.x with evConn := !t }) c
    generalize vDispTerm (v.set { v.x with evConn := !t }) c = v' at e ⊢
    constructor <;> simp_all [V.set]
  | terminate => exact vchange_same true rfl
  | userUp r w us h1 h2 => constructor <;> simp_all [V.set, V.post]
  | userDown r us h1 => constructor <;> simp_all [V.set]
  | readable h1 h2 => split <;> constructor <;> simp_all [V.set]
  | writable h1 h2 => constructor <;> simp_all [V.set]
  | hsDone h1 h2 h3 => constructor <;> simp_all [V.set, V.post]
  | ioError h1 h2 h3 =>
    obtain ⟨b, e⟩ := vWorkerTerm_same v c
    exact vchange_same b e
  | sendBuf h1 h2 h3 => constructor <;> simp_all [V.set]

theorem vchange_refl (g : Pool.Cfg) (c : Nat) (v : V) : VChange g c v v := by
  constructor <;> simp_all

/-- What holds of a network in every schedule. -/
structure RInv (g : Cfg) (s : RSt) : Prop where
  acc : Acc g s
  run : s.phase = .running → AllV1 g.pool s.m.st ∧ ∀ c, c < s.m.st.n → (s.m.st.conn c).evConn = true → s.dial c = true
  stp : s.phase = .stopped → ∀ c, c < s.m.st.n → (s.m.st.conn c).closed ≠ 0
  fin : s.phase = .destroyed → s.m.st.pool = [] ∧ (∀ w, s.m.st.wq w = []) ∧ s.m.st.uq = [] ∧ s.m.mq = [] ∧ s.table = []

theorem acc_congr {g : Cfg} {s r : RSt} (e : r = { s with gone := r.gone, bad := r.bad }) (c : Nat) : held g r c = held g s c := by
  rw [e]; rfl

theorem rinv_congr {g : Cfg} {s r : RSt} (ha : Acc g r) (e : r = { s with gone := r.gone, bad := r.bad })
    (run : s.phase = .running → AllV1 g.pool s.m.st ∧ ∀ c, c < s.m.st.n → (s.m.st.conn c).evConn = true → s.dial c = true)
    (stp : s.phase = .stopped → ∀ c, c < s.m.st.n → (s.m.st.conn c).closed ≠ 0)
    (fin : s.phase = .destroyed → s.m.st.pool = [] ∧ (∀ w, s.m.st.wq w = []) ∧ s.m.st.uq = [] ∧ s.m.mq = [] ∧ s.table = []) : RInv g r := by
  refine ⟨ha, ?_, ?_, ?_⟩ <;> rw [e]
  · exact run
  · exact stp
  · exact fin

/-- A step of the pool uses and changes only connections that have a handle, or creates them. -/
theorem pool_view {g : Cfg} {s : RSt} {st' : St} {a0 : Act} (hi : AllV1 g.pool s.m.st)
    (hd : ∀ c, c < s.m.st.n → (s.m.st.conn c).evConn = true → s.dial c = true)
    (hst : step g.pool s.m.st a0 = some st')
    (hw : ∀ w f, a0 = .exec w f → w ∈ workers g) (hterm : ∀ c, a0 = .terminate c → s.user c ≠ 0) (c : Nat) :
    view st' c = view s.m.st c ∨ held g s c = true ∨ (s.m.st.n ≤ c ∧ c < st'.n) := by
  obtain ⟨h1, h2, h3⟩ := step_view hi.base hst
  rcases Nat.lt_or_ge c s.m.st.n with hc | hc
  · rcases h2 c hc with h2 | h2
    · exact .inl h2
    · right; left
      generalize view st' c = v' at h2
      cases h2 with
      | exec w fail t ts hc' hq _ =>
        have hm : t ∈ (view s.m.st c).q w := by rw [hq]; simp
        rw [← hc']
        exact held_task (hw w fail rfl) (List.mem_filter.1 hm).1
      | connReady w he => exact held_dial (hd c hc he)
      | connFail t he => exact held_dial (hd c hc he)
      | terminate => exact held_user (hterm c rfl)
      | userUp r w us hu _ =>
        have hm : (⟨c, true⟩ : Upd) ∈ (view s.m.st c).u := by rw [hu]; simp
        exact held_upd (u := ⟨c, true⟩) (List.mem_filter.1 hm).1
      | userDown r us hu =>
        have hm : (⟨c, false⟩ : Upd) ∈ (view s.m.st c).u := by rw [hu]; simp
        exact held_upd (u := ⟨c, false⟩) (List.mem_filter.1 hm).1
      | readable h _ => exact held_sock h
      | writable h _ => exact held_sock h
      | hsDone h _ _ => exact held_sock h
      | ioError h _ _ => exact held_sock h
      | sendBuf h _ _ => exact held_sock h
  · rcases Nat.lt_or_ge c st'.n with hc' | hc'
    · exact .inr (.inr ⟨hc, hc'⟩)
    · exact .inl (step_far hi.base hst c hc')

/-- How the pool may go on while the network runs. -/
structure Moves (g : Cfg) (s : RSt) (a : RAct) (st' : St) : Prop where
  le : s.m.st.n ≤ st'.n
  inv : AllV1 g.pool st'
  view : ∀ c, view st' c = view s.m.st c ∨ held g s c = true ∨ (s.m.st.n ≤ c ∧ c < st'.n)
  chg : ∀ c, c < s.m.st.n → VChange g.pool c (Pool.view s.m.st c) (Pool.view st' c)
  new : ∀ c, s.m.st.n ≤ c → c < st'.n → VNew g.pool c (Pool.view st' c)
  pool : ∀ e ∈ st'.pool, e ∈ s.m.st.pool ∨ (s.m.st.n ≤ e.2 ∧ e.2 < st'.n)
  v2 : AllV2 g.pool s.m.st → (∀ c, a = .pool (.connReady c) → .dterm c ∉ s.m.st.wq 0) → AllV2 g.pool st'

theorem moves_step {g : Cfg} {s : RSt} {st' : St} {a : RAct} {a0 : Act} (h : RInv g s) (hr : s.phase = .running)
    (hst : step g.pool s.m.st a0 = some st')
    (hw : ∀ w f, a0 = .exec w f → w ∈ workers g) (hterm : ∀ c, a0 = .terminate c → s.user c ≠ 0)
    (hready : ∀ c, a0 = .connReady c → a = .pool (.connReady c)) : Moves g s a st' := by
  obtain ⟨hi, hd⟩ := h.run hr
  obtain ⟨h1, h2, h3⟩ := step_view hi.base hst
  refine ⟨h1, allV1_step hi hst, pool_view hi hd hst hw hterm, fun c hc => ?_, h3, step_pool hst,
    fun hv hc => allV2_step hv hst (fun c ha => hc c (hready c ha))⟩
  rcases h2 c hc with h2 | h2
  · rw [h2]; exact vchange_refl ..
  · exact vchange h2

theorem moves_refl {g : Cfg} {s : RSt} {a : RAct} (h : RInv g s) (hr : s.phase = .running) : Moves g s a s.m.st :=
  ⟨Nat.le_refl _, (h.run hr).1, fun _ => .inl rfl, fun _ _ => vchange_refl .., fun c h1 h2 => by omega, fun _ he => .inl he, fun hv _ => hv⟩

/-- What a step of a running network does with the handles. -/
structure RunStep (g : Cfg) (s : RSt) (a : RAct) (s' : RSt) : Prop where
  mv : Moves g s a s'.m.st
  table : s'.table = (hooks g s s'.m).table
  timer : s'.timer = (hooks g s s'.m).timer
  phase : s'.phase = .running
  mq : ∀ c ∈ s'.m.mq, c ∈ s.m.mq ∨ held g s c = true
  poll : ∀ c, s'.m.poll c = true → (s.m.poll c = true ∨ (s.m.st.conn c).sock = true) ∧ (s'.m.st.conn c).wDown = (s.m.st.conn c).wDown
  dial : ∀ c, s'.dial c = true → (hooks g s s'.m).dial c = true ∨ (s.m.st.n ≤ c ∧ c < s'.m.st.n)
  dial2 : ∀ c, (hooks g s s'.m).dial c = true → s'.dial c = true
  dial3 : ∀ c, s.m.st.n ≤ c → c < s'.m.st.n → (s'.m.st.conn c).evConn = true → s'.dial c = true
  user : ∀ c, s'.user c ≠ 0 → s.user c ≠ 0 ∨ held g s c = true ∨ (s.m.st.n ≤ c ∧ c < s'.m.st.n)
  use : ∀ c ∈ uses s a, held g s c = true

theorem new_open {g : Pool.Cfg} {c : Nat} {st : St} (h : VNew g c (view st c)) :
    (st.conn c).closed = 0 ∧ (st.conn c).term = false ∧ (st.conn c).sendOn = false := by
  generalize hgen : view st c = v at h
  have : (st.conn c) = v.x := by rw [← hgen]; rfl
  rw [this]
  cases h <;> exact ⟨rfl, rfl, rfl⟩

/-- A step of a running network. -/
theorem running_step {g : Cfg} {s s' : RSt} {a : RAct} (h : RInv g s) (hrun : s.phase = .running)
    (he : effect g s a = some s') (hs : RunStep g s a s') :
    ∃ r, rstep g s a = some r ∧ RInv g r ∧ r = { s' with gone := r.gone, bad := r.bad } := by
  have hd : ∀ c, (hooks g s s'.m).dial c = true → s.dial c = true := fun c hc => by simp [hooks] at hc; exact hc.1
  obtain ⟨r, hr1, hr2, hr3⟩ := acc_step h.acc he hs.mv.le
    (fun c hc hc' => held_pool ((hs.mv.inv.base.conn c hc').inpool (new_open (hs.mv.new c hc hc')).1))
    (grow_of s' rfl rfl hs.table hs.timer hs.mv.pool hs.mv.view hs.mq
      (fun c hc => (hs.poll c hc).1.imp_right held_sock) (fun c hc => (hs.dial c hc).imp (hd c) .inr) hs.user)
    hs.use
  · refine ⟨r, hr1, rinv_congr hr2 hr3 (fun _ => ?_) (fun hp' => by rw [hs.phase] at hp'; cases hp') (fun hp' => by rw [hs.phase] at hp'; cases hp'), hr3⟩
    refine ⟨hs.mv.inv, fun c hc hev => ?_⟩
    rcases Nat.lt_or_ge c s.m.st.n with hlt | hge
    · obtain ⟨e1, e2⟩ := (hs.mv.chg c hlt).ev hev
      refine hs.dial2 c ?_
      have e2' : (s'.m.st.conn c).dDown = (s.m.st.conn c).dDown := e2
      simp only [hooks, e2', beq_self_eq_true, Bool.and_true]
      exact (h.run hrun).2 c hlt e1
    · exact hs.dial3 c hge hc hev

/-- Outside of its running time the network only reports, throws messages away and takes requests. -/
theorem idle_step {g : Cfg} {s s' : RSt} {m' : MSt} {a : RAct} {c0 : Nat} (h : RInv g s) (hr : s.phase = .stopped)
    (he : effect g s a = some s') (hn : m'.st.n = s.m.st.n)
    (hv : ∀ d, d ≠ c0 → view m'.st d = view s.m.st d) (hc0 : held g s c0 = true)
    (hcl : (m'.st.conn c0).closed = (s.m.st.conn c0).closed)
    (hpl : m'.st.pool = s.m.st.pool)
    (hm : s'.m = m') (ht : s'.table = (hooks g s m').table) (htm : s'.timer = (hooks g s m').timer) (hp : s'.phase = .stopped)
    (hmq : ∀ c ∈ m'.mq, c ∈ s.m.mq) (hpoll : ∀ c, m'.poll c = true → s.m.poll c = true)
    (hdial : ∀ c, s'.dial c = true → s.dial c = true)
    (huser : ∀ c, s'.user c ≠ 0 → s.user c ≠ 0 ∨ held g s c = true)
    (huse : ∀ c ∈ uses s a, held g s c = true) :
    ∃ r, rstep g s a = some r ∧ RInv g r ∧ r = { s' with gone := r.gone, bad := r.bad } := by
  have hn' : s'.m.st.n = s.m.st.n := by rw [hm, hn]
  obtain ⟨r, hr1, hr2, hr3⟩ := acc_step h.acc he (by omega) (fun c hc hc' => by omega)
    (fun c hc => by
      rw [hn']
      refine grow_of (m' := m') s' (hn.symm) hm ht htm (fun e he => .inl (hpl ▸ he)) (fun d => ?_) (fun c hc => .inl (hmq c hc)) (fun c hc => .inl (hpoll c hc))
        (fun c hc => .inl (hdial c hc)) (fun c hc => (huser c hc).imp_right .inl) c hc
      by_cases e : d = c0
      · subst e; exact .inr (.inl hc0)
      · exact .inl (hv d e)) huse
  refine ⟨r, hr1, rinv_congr hr2 hr3 (fun hp' => by rw [hp] at hp'; cases hp') (fun _ c hc => ?_) (fun hp' => by rw [hp] at hp'; cases hp'), hr3⟩
  rw [hm] at hc ⊢
  have := h.stp hr c (by omega)
  by_cases e : c = c0
  · subst e; rw [hcl]; exact this
  · have hx : m'.st.conn c = s.m.st.conn c := congrArg V.x (hv c e)
    rw [hx]; exact this

/-- A step that only concerns the handles of the program. -/
theorem user_step {g : Cfg} {s : RSt} {a : RAct} (f : Nat → Nat) (h : RInv g s)
    (he : effect g s a = some { s with user := f })
    (huser : ∀ c, f c ≠ 0 → s.user c ≠ 0 ∨ held g s c = true)
    (huse : ∀ c ∈ uses s a, held g s c = true) :
    ∃ r, rstep g s a = some r ∧ RInv g r ∧ r = { ({ s with user := f } : RSt) with gone := r.gone, bad := r.bad } := by
  obtain ⟨r, hr1, hr2, hr3⟩ := acc_step h.acc he (Nat.le_refl _) (fun c (hc : _ ≤ c) (hc' : c < s.m.st.n) => by omega)
    (fun c hc => by
      left
      rw [held_iff] at hc
      rcases hc with hc | hc | hc | hc | hc | hc | hc | hc | hc | hc | hc
      · exact (held_iff ..).2 (.inl hc)
      · exact (held_iff ..).2 (.inr (.inl hc))
      · exact (held_iff ..).2 (.inr (.inr (.inl hc)))
      · exact held_msg hc
      · exact (held_iff ..).2 (.inr (.inr (.inr (.inr (.inl hc)))))
      · exact held_dial hc
      · exact held_sock hc
      · have hc' : (s.m.st.conn c).sendOn = true := hc
        simp [held, hc']
      · have hc' : s.timer c = true := hc
        simp [held, hc']
      · exact held_poll hc
      · exact (huser c hc).elim held_user id) huse
  exact ⟨r, hr1, rinv_congr hr2 hr3 h.run h.stp h.fin, hr3⟩

theorem foldl_td_rest : ∀ (l : List (Nat × Nat)) (s : St),
    (l.foldl (fun s e => releaseConn (workerTeardown s e.2) e.2) s).pool = s.pool ∧
    (l.foldl (fun s e => releaseConn (workerTeardown s e.2) e.2) s).wq = s.wq ∧
    (l.foldl (fun s e => releaseConn (workerTeardown s e.2) e.2) s).uq = s.uq := by
  intro l
  induction l with
  | nil => intro s; exact ⟨rfl, rfl, rfl⟩
  | cons e l ih =>
    intro s; rw [List.foldl_cons]
    obtain ⟨h1, h2, h3⟩ := ih (releaseConn (workerTeardown s e.2) e.2)
    exact ⟨h1, h2, h3⟩

theorem finalize_view {s : St} (h : Inv none s) (c : Nat) : view (finalize s) c = view s c ∨ ∃ e ∈ s.pool, e.2 = c := by
  obtain ⟨h1, h2, h3⟩ := foldl_td_rest s.pool s
  by_cases e : c ∈ s.pool.map (·.2)
  · right
    obtain ⟨p, hp, rfl⟩ := List.mem_map.1 e
    exact ⟨p, hp, rfl⟩
  · left
    have hx : (finalize s).conn c = s.conn c := by
      unfold finalize
      rw [foldl_td _ _ (pool_snd_nodup h), if_neg e]
    simp only [view, hx]
    unfold finalize
    rw [h2, h3]

/-- stop gives nobody a handle. -/
theorem stop_grow {g : Cfg} {s : RSt} (h : Inv none s.m.st) (c : Nat) (hc : held g (stop g s) c = true) : held g s c = true := by
  have hn := finalize_n s.m.st
  have := grow_of (g := g) (s := s) (n' := s.m.st.n)
    (m' := { s.m with st := finalize s.m.st
                      poll := fun c => s.m.poll c && ((finalize s.m.st).conn c).wDown == (s.m.st.conn c).wDown })
    (stop g s) hn.symm rfl rfl rfl
    (fun e he => .inl (by have := (foldl_td_rest s.m.st.pool s.m.st).1; unfold finalize at he; rw [this] at he; exact he))
    (fun d => (finalize_view h d).imp_right (fun ⟨e, he, hd⟩ => .inl (hd ▸ held_pool he)))
    (fun c hc => .inl hc) (fun c hc => .inl (by simp at hc; exact hc.1))
    (fun c hc => .inl (by simp [stop, hooks] at hc; exact hc.1)) (fun c hc => .inl hc) c hc
  rcases this with h | h
  · exact h
  · omega

/-- Taking the network's own tables away gives nobody a handle. -/
theorem destroy_grow {g : Cfg} {s : RSt} (c : Nat)
    (hc : held g { s with
        m := { s.m with st := { s.m.st with pool := [], wq := fun _ => [], uq := [] }, mq := [] }
        table := []
        phase := .destroyed } c = true) : held g s c = true := by
  rw [held_iff] at hc
  rcases hc with hc | hc | hc | hc | hc | hc | hc | hc | hc | hc | hc
  · obtain ⟨e, he, _⟩ := hc; exact absurd he (by simp)
  · obtain ⟨w, _, t, he, _⟩ := hc; exact absurd he (by simp)
  · obtain ⟨e, he, _⟩ := hc; exact absurd he (by simp)
  · exact absurd hc (by simp)
  · obtain ⟨e, he, _⟩ := hc; exact absurd he (by simp)
  · exact held_dial hc
  · exact held_sock hc
  · have hc' : (s.m.st.conn c).sendOn = true := hc
    simp [held, hc']
  · have hc' : s.timer c = true := hc
    simp [held, hc']
  · exact held_poll hc
  · exact held_user hc

theorem stop_closed {g : Cfg} {s : RSt} (h : Inv none s.m.st) (c : Nat) (hc : c < s.m.st.n) :
    ((stop g s).m.st.conn c).closed ≠ 0 := by
  show ((finalize s.m.st).conn c).closed ≠ 0
  rw [finalize_conn h hc]
  split
  · simp [tdConn]
  · assumption

/-- A step of the pool as a step of a running network. -/
theorem runStep_pool {g : Cfg} {s s' : RSt} {st' : St} {a : RAct} {a0 : Act} (h : RInv g s) (hr : s.phase = .running)
    (hst : step g.pool s.m.st a0 = some st')
    (hw : ∀ w f, a0 = .exec w f → w ∈ workers g) (hterm : ∀ c, a0 = .terminate c → s.user c ≠ 0)
    (hready : ∀ c, a0 = .connReady c → a = .pool (.connReady c))
    (hconn : ∀ fd, a0 ≠ .connect fd true)
    (hs : s' = hooks g s (after s.m a0 st')) (huse : ∀ c ∈ uses s a, held g s c = true) : RunStep g s a s' := by
  subst hs
  refine ⟨moves_step (a := a) h hr hst hw hterm hready, rfl, rfl, hr, fun c hc => .inl hc, fun c hc => ?_, fun c hc => .inl hc, fun c hc => hc, fun c hc hc' hev => ?_, fun c hc => .inl hc, huse⟩
  · simp [hooks, after] at hc
    exact ⟨.inl hc.1, hc.2⟩
  · obtain ⟨fd, e⟩ := step_ev hst c hc hc' hev
    exact absurd e (hconn fd)

/-- A running network: every step but those of the program's own handles and the end. -/
theorem run_class {g : Cfg} {s s' : RSt} {a : RAct} (h : RInv g s) (hr : s.phase = .running)
    (he : effect g s a = some s') (h1 : ∀ c, a ≠ .copy c) (h2 : ∀ c, a ≠ .release c) (h3 : a ≠ .stop) (h4 : a ≠ .destroy) :
    RunStep g s a s' := by
  obtain ⟨hi, hd⟩ := h.run hr
  cases a with
  | pool a0 =>
    cases a0 with
    | connect | user | readable => cases he
    | terminate c =>
      simp only [effect] at he
      split at he
      · rename_i hc
        simp only [Bool.and_eq_true, bne_iff_ne, ne_eq] at hc
        simp only [mstep, Option.map_map, Option.map_eq_some_iff] at he
        obtain ⟨st', hst, rfl⟩ := he
        exact runStep_pool h hr hst (by simp) (by simp; exact hc.1) (by simp) (by simp) rfl (by simp [uses]; exact held_user hc.1)
      · cases he
    | exec w f =>
      simp only [effect] at he
      split at he
      · rename_i hc
        simp only [mstep, Option.map_map, Option.map_eq_some_iff] at he
        obtain ⟨st', hst, rfl⟩ := he
        refine runStep_pool h hr hst (by simp; exact hc.2) (by simp) (by simp) (by simp) rfl ?_
        simp only [uses]
        split
        · simp
        · rename_i t ts hq
          simp only [List.mem_singleton, forall_eq, about_eq]
          exact held_task hc.2 (by rw [hq]; simp)
      · cases he
    | accept | acceptFail | listen =>
      simp only [effect, hr, if_true] at he
      simp only [mstep, Option.map_map, Option.map_eq_some_iff] at he
      obtain ⟨st', hst, rfl⟩ := he
      exact runStep_pool h hr hst (by simp) (by simp) (by simp) (by simp) rfl (by simp [uses])
    | connReady c | connFail c t =>
      simp only [effect, hr, if_true] at he
      simp only [mstep, Option.map_map, Option.map_eq_some_iff] at he
      obtain ⟨st', hst, rfl⟩ := he
      refine runStep_pool h hr hst (by simp) (by simp) (by simp) (by simp) rfl ?_
      simp only [step] at hst
      split at hst
      · rename_i hc
        simp [uses]; exact held_dial (hd c hc.1 hc.2)
      · cases hst
    | writable c | hsDone c | ioError c | sendBuf c =>
      simp only [effect, hr, if_true] at he
      simp only [mstep, Option.map_map, Option.map_eq_some_iff] at he
      obtain ⟨st', hst, rfl⟩ := he
      refine runStep_pool h hr hst (by simp) (by simp) (by simp) (by simp) rfl ?_
      simp only [step] at hst
      split at hst
      · rename_i hc
        simp [uses]; exact held_sock hc.2.1
      · cases hst
  | dial fd ok give =>
    simp only [effect, hr, if_true] at he
    simp only [mstep, Option.map_map, Option.map_eq_some_iff] at he
    obtain ⟨st', hst, rfl⟩ := he
    have mv := moves_step (a := .dial fd ok give) h hr hst (by simp) (by simp) (by simp)
    have hn : st'.n = s.m.st.n + 1 := by
      simp only [step] at hst
      split at hst
      · cases hst; cases ok <;> simp [dispTerminate_n]
      · cases hst
    refine ⟨mv, rfl, rfl, hr, fun c hc => .inl hc, fun c hc => ?_, fun c hc => ?_, fun c hc => ?_, fun c hc hc' hev => ?_, fun c hc => ?_, by simp [uses]⟩
    · simp [hooks, after] at hc
      exact ⟨.inl hc.1, hc.2⟩
    · by_cases e : c = s.m.st.n
      · subst e; exact .inr ⟨Nat.le_refl _, by show s.m.st.n < st'.n; omega⟩
      · left
        cases ok <;> simp [upd_ne _ _ e] at hc
        · exact hc
        · exact hc
    · by_cases e : c = s.m.st.n
      · subst e; cases ok
        · exact hc
        · simp
      · cases ok
        · exact hc
        · simp [upd_ne _ _ e]; exact hc
    · obtain ⟨fd', e⟩ := step_ev hst c hc hc' hev
      simp at e
      have hcn : c = s.m.st.n := by have : c < st'.n := hc'; omega
      rw [e.2, hcn]; simp
    · by_cases e : c = s.m.st.n
      · subst e; exact .inr (.inr ⟨Nat.le_refl _, by show s.m.st.n < st'.n; omega⟩)
      · left
        cases give <;> simp [upd_ne _ _ e] at hc
        · exact hc
        · exact hc
  | told r keep =>
    simp only [effect, hr] at he
    rcases hq : s.m.st.uq with _ | ⟨u, us⟩
    · rw [hq] at he; cases he
    · rw [hq] at he
      have hu : held g s u.c = true := held_upd (by rw [hq]; simp)
      simp only [mstep, Option.map_map, Option.map_eq_some_iff, reduceCtorEq, if_false] at he
      obtain ⟨st', hst, rfl⟩ := he
      have R := runStep_pool (s' := hooks g s (after s.m (.user r) st')) (a := .told r keep) h hr hst (by simp) (by simp) (by simp) (by simp) rfl (by
        simp [uses, hq]; exact hu)
      obtain ⟨r1, r2, r3, r4, r5, r6, r7, r8, r9, r10, r11⟩ := R
      refine ⟨r1, r2, r3, r4, r5, r6, r7, r8, r9, fun c hc => ?_, r11⟩
      by_cases e : c = u.c
      · subst e; exact .inr (.inl hu)
      · refine r10 c ?_
        cases keep <;> simp [upd_ne _ _ e] at hc
        · exact hc
        · exact hc
  | read c k full =>
    simp only [effect, hr, if_true] at he
    simp only [mstep, Option.map_map, Option.map_eq_some_iff] at he
    obtain ⟨st', hst, rfl⟩ := he
    have hc : (s.m.st.conn c).sock = true ∧ (st'.conn c).wDown = (s.m.st.conn c).wDown := by
      simp only [step] at hst
      split at hst
      · rename_i hc
        cases hst
        refine ⟨hc.2.1, ?_⟩
        split <;> simp [setConn]
      · cases hst
    have R := runStep_pool (s' := hooks g s (after s.m (.readable c) st')) (a := .read c k full) h hr hst (by simp) (by simp) (by simp) (by simp) rfl (by
        simp [uses]; exact held_sock hc.1)
    obtain ⟨r1, r2, r3, r4, r5, r6, r7, r8, r9, r10, r11⟩ := R
    simp only [Function.comp]
    split
    · refine ⟨r1, r2, r3, r4, fun d hd => ?_, fun d hd => ?_, r7, r8, r9, r10, r11⟩
      · simp only [hooks, after, List.mem_append, List.mem_replicate] at hd
        rcases hd with hd | hd
        · exact .inl hd
        · rw [hd.2]; exact .inr (held_sock hc.1)
      · by_cases e : d = c
        · subst e; exact ⟨.inr hc.1, hc.2⟩
        · simp only [hooks, upd_ne _ _ e] at hd
          exact r6 d hd
    · exact ⟨r1, r2, r3, r4, r5, r6, r7, r8, r9, r10, r11⟩
  | retry c k full =>
    simp only [effect, hr, if_true, mstep] at he
    split at he
    · rename_i hc
      cases he
      have mv := moves_refl (a := .retry c k full) h hr
      refine ⟨mv, rfl, rfl, hr, fun d hd => ?_, fun d hd => ?_, fun d hd => .inl hd, fun d hd => hd, fun d hd hd' => ?_, fun d hd => .inl hd, ?_⟩
      · simp only [hooks, List.mem_append, List.mem_cons, List.mem_replicate] at hd
        rcases hd with hd | rfl | hd
        · exact .inl hd
        · exact .inr (held_poll hc)
        · rw [hd.2]; exact .inr (held_poll hc)
      · by_cases e : d = c
        · subst e; exact ⟨.inl hc, rfl⟩
        · simp only [hooks, upd_ne _ _ e] at hd
          exact ⟨.inl hd, rfl⟩
      · have : d < s.m.st.n := hd'
        omega
      · simp [uses]; exact held_poll hc
    · cases he
  | handle keep =>
    simp only [effect, hr, if_true, mstep] at he
    rcases hq : s.m.mq with _ | ⟨c, ms⟩
    · rw [hq] at he; cases he
    · rw [hq] at he
      simp only [hq, Option.map_some, Option.some.injEq] at he
      subst he
      have hu : held g s c = true := held_msg (by rw [hq]; simp)
      have mv := moves_refl (a := .handle keep) h hr
      refine ⟨mv, rfl, rfl, hr, fun d hd => ?_, fun d hd => ⟨.inl hd, rfl⟩, fun d hd => .inl hd, fun d hd => hd, fun d hd hd' => ?_, fun d hd => ?_, ?_⟩
      · left; rw [hq]; exact List.mem_cons_of_mem _ hd
      · have : d < s.m.st.n := hd'
        omega
      · by_cases e : d = c
        · subst e; exact .inr (.inl hu)
        · left
          cases keep <;> simp [upd_ne _ _ e] at hd
          · exact hd
          · exact hd
      · simp [uses, hq]; exact hu
  | drop =>
    simp only [effect, hr, mstep, reduceCtorEq, if_false] at he
    rcases hq : s.m.mq with _ | ⟨c, ms⟩
    · rw [hq] at he; cases he
    · rw [hq] at he
      simp only [Option.map_some, Option.some.injEq] at he
      subst he
      have hu : held g s c = true := held_msg (by rw [hq]; simp)
      have mv := moves_refl (a := .drop) h hr
      refine ⟨mv, rfl, rfl, hr, fun d hd => ?_, fun d hd => ⟨.inl hd, rfl⟩, fun d hd => .inl hd, fun d hd => hd, fun d hd hd' => ?_, fun d hd => .inl hd, ?_⟩
      · left; rw [hq]; exact List.mem_cons_of_mem _ hd
      · have : d < s.m.st.n := hd'
        omega
      · simp [uses, hq]; exact hu
  | copy c => exact absurd rfl (h1 c)
  | release c => exact absurd rfl (h2 c)
  | stop => exact absurd rfl h3
  | destroy => exact absurd rfl h4

/-- What holds besides when no connection attempt is completed too late. -/
structure Clean (g : Cfg) (s : RSt) : Prop where
  v2 : s.phase = .running → AllV2 g.pool s.m.st
  run : s.phase = .running → ∀ c, c < s.m.st.n →
    ((s.m.st.conn c).sendOn = true → (s.m.st.conn c).term = false) ∧ (s.timer c = true → (s.m.st.conn c).term = false) ∧
    (s.m.poll c = true → (s.m.st.conn c).term = false) ∧ (s.dial c = true → (s.m.st.conn c).closed = 0)
  tbl : s.phase = .running → ∀ e ∈ s.table, e.1 = g.addr e.2 ∧ e.2 < s.m.st.n ∧ (s.m.st.conn e.2).closed = 0 ∧ g.client = true
  off : s.phase ≠ .running → ∀ c, c < s.m.st.n →
    (s.m.st.conn c).sock = false ∧ (s.m.st.conn c).sendOn = false ∧ s.timer c = false ∧ s.m.poll c = false ∧ s.dial c = false

theorem clean_congr {g : Cfg} {s r : RSt} (e : r = { s with gone := r.gone, bad := r.bad }) (h : Clean g s) : Clean g r := by
  obtain ⟨h1, h2, h3, h4⟩ := h
  constructor <;> rw [e]
  · exact h1
  · exact h2
  · exact h3
  · exact h4

theorem clean_running {g : Cfg} {s s' : RSt} {a : RAct} (h : RInv g s) (hrun : s.phase = .running) (hs : RunStep g s a s')
    (hc : Clean g s) (hno : ∀ c, a = .pool (.connReady c) → .dterm c ∉ s.m.st.wq 0) : Clean g s' := by
  have V1s := (h.run hrun).1.v1
  have V2s := (hc.v2 hrun).v2
  have R := hc.run hrun
  have hfeed : ∀ c, c < s.m.st.n → ∀ w, .feed c ∈ (view s.m.st c).q w → (s.m.st.conn c).term = false := fun c hc w hw =>
    (feed_facts (V1s c hc) (V2s c hc) hw).2.2
  refine ⟨fun _ => hs.mv.v2 (hc.v2 hrun) hno, fun _ c hcn => ?_, fun _ e he => ?_, fun hp => absurd hs.phase hp⟩
  · rcases Nat.lt_or_ge c s.m.st.n with hlt | hge
    · have ch := hs.mv.chg c hlt
      obtain ⟨r1, r2, r3, r4⟩ := R c hlt
      refine ⟨fun hx => ?_, fun hx => ?_, fun hx => ?_, fun hx => ?_⟩
      · have e : (s'.m.st.conn c).term = (s.m.st.conn c).term := ch.sendT hx
        rw [e]
        rcases ch.send hx with h1 | ⟨w, h1⟩ | h1
        · exact r1 h1
        · exact hfeed c hlt w h1
        · exact (V2s c hlt).sockT h1
      · rw [hs.timer] at hx
        simp only [hooks, Bool.and_eq_true, Bool.or_eq_true, beq_iff_eq, bne_iff_ne, ne_eq] at hx
        have e : (s'.m.st.conn c).term = (s.m.st.conn c).term := ch.down hx.2
        rw [e]
        rcases hx.1 with h1 | h1
        · exact r2 h1
        · rcases ch.wset h1 with ⟨w, h1⟩ | h1
          · exact hfeed c hlt w h1
          · exact (V2s c hlt).sockT h1
      · obtain ⟨h1, h2⟩ := hs.poll c hx
        have e : (s'.m.st.conn c).term = (s.m.st.conn c).term := ch.down h2
        rw [e]
        exact h1.elim r3 (V2s c hlt).sockT
      · rcases hs.dial c hx with h1 | h1
        · simp only [hooks, Bool.and_eq_true, beq_iff_eq] at h1
          have e : (s'.m.st.conn c).closed = (s.m.st.conn c).closed := ch.ddown h1.2
          rw [e]; exact r4 h1.1
        · omega
    · have hn := new_open (hs.mv.new c hge hcn)
      exact ⟨fun _ => hn.2.1, fun _ => hn.2.1, fun _ => hn.2.1, fun _ => hn.1⟩
  · rw [hs.table] at he
    rcases hooks_table he with ⟨h1, h2⟩ | ⟨h1, h2, h3, h4⟩
    · obtain ⟨t1, t2, t3, t4⟩ := hc.tbl hrun e h1
      refine ⟨t1, Nat.lt_of_lt_of_le t2 hs.mv.le, ?_, t4⟩
      have hd : (s'.m.st.conn e.2).dDown = (s.m.st.conn e.2).dDown := by
        by_cases hd : (s'.m.st.conn e.2).dDown = (s.m.st.conn e.2).dDown
        · exact hd
        · exact absurd t1.symm (h2 e.2 (Nat.lt_of_lt_of_le t2 hs.mv.le) hd t4)
      have e : (s'.m.st.conn e.2).closed = (s.m.st.conn e.2).closed := (hs.mv.chg e.2 t2).ddown hd
      rw [e]; exact t3
    · refine ⟨h1, h2, ?_, h4⟩
      rcases Nat.lt_or_ge e.2 s.m.st.n with hlt | hge
      · obtain ⟨⟨w, hw⟩, hcl⟩ := (hs.mv.chg e.2 hlt).set h3
        have hcl' : (s'.m.st.conn e.2).closed = (s.m.st.conn e.2).closed := hcl
        rw [hcl']
        have hw0 := (V1s e.2 hlt).set0 w hw
        subst hw0
        rcases Nat.eq_zero_or_pos (s.m.st.conn e.2).closed with hz | hz
        · exact hz
        · exact absurd hw ((V2s e.2 hlt).closedS (by have : (s.m.st.conn e.2).closed ≠ 0 := by omega
                                                     exact this))
      · exact (new_open (hs.mv.new e.2 hge h2)).1

theorem stop_clean {g : Cfg} {s : RSt} (h : RInv g s) (hrun : s.phase = .running) (hc : Clean g s) (c : Nat) (hn : c < s.m.st.n) :
    ((stop g s).m.st.conn c).sock = false ∧ ((stop g s).m.st.conn c).sendOn = false ∧ (stop g s).timer c = false ∧
    (stop g s).m.poll c = false ∧ (stop g s).dial c = false := by
  have hi := (h.run hrun).1.base
  have fc := finalize_conn hi hn
  have e : (stop g s).m.st = finalize s.m.st := rfl
  obtain ⟨r1, r2, r3, r4⟩ := hc.run hrun c hn
  by_cases e0 : (s.m.st.conn c).closed = 0
  · rw [if_pos e0] at fc
    refine ⟨by rw [e, fc]; rfl, by rw [e, fc]; rfl, ?_, ?_, ?_⟩ <;> simp [stop, hooks, fc, tdConn]
  · rw [if_neg e0] at fc
    have ht : (s.m.st.conn c).term = true := by
      have := (hi.conn c hn).once
      cases hh : (s.m.st.conn c).term
      · rw [hh] at this; simp at this; omega
      · rfl
    have nf : ∀ {b : Bool}, (b = true → (s.m.st.conn c).term = false) → b = false := fun {b} hb => by
      cases b
      · rfl
      · rw [hb rfl] at ht; cases ht
    have n1 := nf (((hc.v2 hrun).v2 c hn).sockT)
    have n2 := nf r1
    have n3 := nf r2
    have n4 := nf r3
    have n5 : s.dial c = false := by
      cases hd : s.dial c
      · rfl
      · exact absurd (r4 hd) e0
    refine ⟨by rw [e, fc]; exact n1, by rw [e, fc]; exact n2, ?_, ?_, ?_⟩ <;> simp [stop, hooks, fc, n3, n4, n5]

theorem stop_user (g : Cfg) (s : RSt) : (stop g s).user = s.user := rfl
theorem stop_n (g : Cfg) (s : RSt) : (stop g s).m.st.n = s.m.st.n := finalize_n s.m.st

theorem hooks_same {g : Cfg} {s : RSt} {m' : MSt} (hn : m'.st.n = s.m.st.n) (hx : ∀ c, (m'.st.conn c).dDown = (s.m.st.conn c).dDown ∧
    (m'.st.conn c).dSetup = (s.m.st.conn c).dSetup ∧ (m'.st.conn c).wSetup = (s.m.st.conn c).wSetup ∧ (m'.st.conn c).wDown = (s.m.st.conn c).wDown) :
    hooks g s m' = { s with m := m' } := by
  have h1 : ∀ c, (m'.st.conn c).dDown = (s.m.st.conn c).dDown := fun c => (hx c).1
  have h2 : ∀ c, (m'.st.conn c).dSetup = (s.m.st.conn c).dSetup := fun c => (hx c).2.1
  have h3 : ∀ c, (m'.st.conn c).wSetup = (s.m.st.conn c).wSetup := fun c => (hx c).2.2.1
  have h4 : ∀ c, (m'.st.conn c).wDown = (s.m.st.conn c).wDown := fun c => (hx c).2.2.2
  have hf : ∀ l : List Nat, l.filter (fun _ => false) = [] := fun l => by simp
  have ht : ∀ l : List (Nat × Nat), l.filter (fun _ => (List.range m'.st.n).all fun _ => true) = l := fun l => by
    rw [List.filter_eq_self]; simp
  simp only [hooks, h1, h2, h3, h4, bne_self_eq_false, hf, List.all_nil, List.foldl_nil, Bool.or_false, beq_self_eq_true, Bool.and_true]
  simp

/-- What a connection keeps when the program terminates it or is told of it. -/
structure Same (x y : Conn) : Prop where
  closed : y.closed = x.closed
  dDown : y.dDown = x.dDown
  dSetup : y.dSetup = x.dSetup
  wSetup : y.wSetup = x.wSetup
  wDown : y.wDown = x.wDown
  sock : y.sock = x.sock
  sendOn : y.sendOn = x.sendOn

theorem same_refl (x : Conn) : Same x x := ⟨rfl, rfl, rfl, rfl, rfl, rfl, rfl⟩

theorem told_facts {g : Pool.Cfg} {s st' : St} {r : Bool} {u : Upd} {us : List Upd} (hq : s.uq = u :: us) (h : step g s (.user r) = some st') :
    st'.n = s.n ∧ st'.pool = s.pool ∧ (∀ d, d ≠ u.c → view st' d = view s d) ∧ ∀ d, Same (s.conn d) (st'.conn d) := by
  obtain ⟨c, connected⟩ := u
  simp only [step, hq, Option.some.injEq] at h
  have hdu : ∀ d, d ≠ c → s.uq.filter (fun u => u.c = d) = us.filter (fun u => u.c = d) := fun d hne => by
    simp [hq, List.filter_cons]; intro h'; exact absurd h'.symm hne
  have hsame : ∀ (d : Nat) (cb : List Bool) (v : Option Bool), Same (s.conn d) (upd s.conn c { s.conn c with cbs := cb, verdict := v } d) := fun d cb v => by
    by_cases e : d = c
    · subst e; rw [upd_same]; exact ⟨rfl, rfl, rfl, rfl, rfl, rfl, rfl⟩
    · rw [upd_ne _ _ e]; exact same_refl _
  subst h
  split
  · split
    · refine ⟨rfl, rfl, fun d hne => ?_, fun d => hsame d _ _⟩
      rw [view_post_ne _ _ (by exact hne), view_set_ne _ _ hne]; simp [view, hdu d hne]
    · exact ⟨rfl, rfl, fun d hne => by simp [view, hdu d hne, setConn, upd_ne _ _ hne], fun d => hsame d _ _⟩
  · refine ⟨rfl, rfl, fun d hne => ?_, fun d => hsame d _ _⟩
    rw [view_set_ne _ _ hne]; simp [view, hdu d hne]

theorem terminate_facts {g : Pool.Cfg} {s st' : St} {c : Nat} (h : step g s (.terminate c) = some st') :
    st'.n = s.n ∧ st'.pool = s.pool ∧ (∀ d, d ≠ c → view st' d = view s d) ∧ ∀ d, Same (s.conn d) (st'.conn d) := by
  simp only [step] at h
  split at h <;> cases h
  refine ⟨rfl, rfl, fun d hne => ?_, fun d => ?_⟩
  · rw [view_post_ne _ _ (by exact hne), view_set_ne _ _ hne]
  · by_cases e : d = c
    · subst e; simp only [post, setConn, upd_same]; exact ⟨rfl, rfl, rfl, rfl, rfl, rfl, rfl⟩
    · simp only [post, setConn, upd_ne _ _ e]; exact same_refl _

theorem after_hooks {g : Cfg} {s : RSt} {st' : St} {a : Act} (hn : st'.n = s.m.st.n) (hx : ∀ d, Same (s.m.st.conn d) (st'.conn d)) :
    hooks g s (after s.m a st') = { s with m := after s.m a st' } :=
  hooks_same hn (fun c => ⟨(hx c).dDown, (hx c).dSetup, (hx c).wSetup, (hx c).wDown⟩)

theorem clean_idle {g : Cfg} {s : RSt} {st' : St} {a : Act} (f : Nat → Nat) (hrun : s.phase ≠ .running) (hn : st'.n = s.m.st.n)
    (hx : ∀ d, Same (s.m.st.conn d) (st'.conn d)) (hc : Clean g s) : Clean g { s with m := after s.m a st', user := f } := by
  refine ⟨fun hp => absurd hp hrun, fun hp => absurd hp hrun, fun hp => absurd hp hrun, fun _ c hcn => ?_⟩
  have hcn' : c < st'.n := hcn
  obtain ⟨h1, h2, h3, h4, h5⟩ := hc.off hrun c (by omega)
  exact ⟨(hx c).sock.trans h1, (hx c).sendOn.trans h2, h3, by simp [after, h4], h5⟩

/-- Every step keeps the invariants. -/
theorem rinv_step {g : Cfg} {s r : RSt} {a : RAct} (h : RInv g s) (hr : rstep g s a = some r) :
    RInv g r ∧ (Clean g s → (∀ c, a = .pool (.connReady c) → .dterm c ∉ s.m.st.wq 0) → Clean g r) := by
  have hr0 := hr
  rw [rstep, Option.map_eq_some_iff] at hr0
  obtain ⟨s', he, _⟩ := hr0
  have pick : ∀ {P : Prop}, (∃ r', rstep g s a = some r' ∧ RInv g r' ∧ r' = { s' with gone := r'.gone, bad := r'.bad }) →
      (P → Clean g s') → RInv g r ∧ (P → Clean g r) := fun {P} ⟨r', h1, h2, h3⟩ hc => by
    rw [hr] at h1; cases h1
    exact ⟨h2, fun hp => clean_congr h3 (hc hp)⟩
  have pick' : (∃ r', rstep g s a = some r' ∧ RInv g r' ∧ r' = { s' with gone := r'.gone, bad := r'.bad }) →
      (Clean g s → (∀ c, a = .pool (.connReady c) → .dterm c ∉ s.m.st.wq 0) → Clean g s') →
      RInv g r ∧ (Clean g s → (∀ c, a = .pool (.connReady c) → .dterm c ∉ s.m.st.wq 0) → Clean g r) := fun h1 h2 =>
    let q := pick (P := Clean g s ∧ (∀ c, a = .pool (.connReady c) → .dterm c ∉ s.m.st.wq 0)) h1 (fun hp => h2 hp.1 hp.2)
    ⟨q.1, fun h3 h4 => q.2 ⟨h3, h4⟩⟩
  clear pick
  -- the handles of the program
  have husr : ∀ c, s.user c ≠ 0 → ∀ v, a = .copy c ∨ a = .release c → s' = { s with user := upd s.user c v } →
      RInv g r ∧ (Clean g s → (∀ c, a = .pool (.connReady c) → .dterm c ∉ s.m.st.wq 0) → Clean g r) := by
    intro c hu v ha hs
    refine pick' ?_ ?_
    · subst hs
      refine user_step _ h he (fun d hd => ?_) ?_
      · by_cases e : d = c
        · subst e; exact .inl hu
        · rw [upd_ne _ _ e] at hd; exact .inl hd
      · rcases ha with rfl | rfl <;> (simp [uses]; exact held_user hu)
    · intro hc _
      subst hs
      exact ⟨hc.v2, hc.run, hc.tbl, hc.off⟩
  have hcopy : ∀ c, a = .copy c → RInv g r ∧ (Clean g s → (∀ c, a = .pool (.connReady c) → .dterm c ∉ s.m.st.wq 0) → Clean g r) := by
    intro c ha
    subst ha
    simp only [effect] at he
    split at he
    · rename_i hu
      exact husr c (by simpa using hu) _ (.inl rfl) (Option.some.inj he).symm
    · cases he
  have hrel : ∀ c, a = .release c → RInv g r ∧ (Clean g s → (∀ c, a = .pool (.connReady c) → .dterm c ∉ s.m.st.wq 0) → Clean g r) := by
    intro c ha
    subst ha
    simp only [effect] at he
    split at he
    · rename_i hu
      exact husr c (by simpa using hu) _ (.inr rfl) (Option.some.inj he).symm
    · cases he
  by_cases hrun : s.phase = .running
  · have hi := (h.run hrun).1.base
    have use0 : ∀ c ∈ s.m.st.pool.map (·.2), held g s c = true := fun c hc => by
      obtain ⟨e, he, rfl⟩ := List.mem_map.1 hc
      exact held_pool he
    cases a with
    | copy c => exact hcopy c rfl
    | release c => exact hrel c rfl
    | stop =>
      simp only [effect, hrun, Option.some.injEq] at he
      subst he
      have hn := stop_n g s
      refine pick' ?_ ?_
      · obtain ⟨r', h1, h2, h3⟩ := acc_step (a := .stop) (s' := stop g s) h.acc (by simp [effect, hrun]) (by omega) (fun c hc hc' => by omega) (fun c hc => .inl (stop_grow hi c hc))
          (by simp only [uses, hrun, if_true]; exact use0)
        exact ⟨r', h1, rinv_congr h2 h3 (fun hp => by cases hp) (fun _ c hc => stop_closed hi c (by omega)) (fun hp => by cases hp), h3⟩
      · intro hc _
        exact ⟨fun hp => (by cases hp), fun hp => (by cases hp), fun hp => (by cases hp), fun _ c hcn => stop_clean h hrun hc c (by omega)⟩
    | destroy =>
      have he' := he
      simp only [effect, hrun, Option.some.injEq, reduceCtorEq, if_true, if_false] at he
      have hn := stop_n g s
      refine pick' ?_ ?_
      · obtain ⟨r', h1, h2, h3⟩ := acc_step (a := .destroy) (s' := s') h.acc he' (by subst he; show s.m.st.n ≤ (stop g s).m.st.n; omega)
          (fun c hc hc' => by subst he; have hc'' : c < (stop g s).m.st.n := hc'; omega)
          (fun c hc => .inl (stop_grow hi c (destroy_grow c (by subst he; exact hc))))
          (by simp only [uses, hrun, if_true]; exact use0)
        refine ⟨r', h1, rinv_congr h2 h3 (fun hp => ?_) (fun hp => ?_) (fun hp => ?_), h3⟩
        · subst he; cases hp
        · subst he; cases hp
        · subst he; exact ⟨rfl, fun _ => rfl, rfl, rfl, rfl⟩
      · intro hc _
        subst he
        exact ⟨fun hp => (by cases hp), fun hp => (by cases hp), fun hp => (by cases hp), fun _ c hcn => stop_clean h hrun hc c (by
          have : c < (stop g s).m.st.n := hcn
          omega)⟩
    | _ =>
      have R := run_class h hrun he (by simp) (by simp) (by simp) (by simp)
      exact pick' (running_step h hrun he R) (fun hc hno => clean_running h hrun R hc hno)
  · by_cases hst : s.phase = .stopped
    · cases a with
      | copy c => exact hcopy c rfl
      | release c => exact hrel c rfl
      | stop =>
        simp only [effect, hst, Option.some.injEq] at he
        subst he
        exact pick' (user_step s.user h (by have q : effect g s .stop = some s := (by simp [effect, hst]); exact q) (fun c hc => .inl hc) (by simp [uses, hst])) (fun hc _ => hc)
      | destroy =>
        have he' := he
        simp only [effect, hst, Option.some.injEq, reduceCtorEq, if_false] at he
        refine pick' ?_ ?_
        · obtain ⟨r', h1, h2, h3⟩ := acc_step (a := .destroy) (s' := s') h.acc he' (by subst he; exact Nat.le_refl _)
            (fun c hc hc' => by subst he; have hc'' : c < s.m.st.n := hc'; omega)
            (fun c hc => .inl (destroy_grow c (by subst he; exact hc)))
            (by simp [uses, hst])
          refine ⟨r', h1, rinv_congr h2 h3 (fun hp => ?_) (fun hp => ?_) (fun hp => ?_), h3⟩
          · subst he; cases hp
          · subst he; cases hp
          · subst he; exact ⟨rfl, fun _ => rfl, rfl, rfl, rfl⟩
        · intro hc _
          subst he
          exact ⟨fun hp => (by cases hp), fun hp => (by cases hp), fun hp => (by cases hp), fun _ c hcn => hc.off hrun c hcn⟩
      | drop =>
        have he' := he
        simp only [effect, hst, mstep, reduceCtorEq, if_false] at he
        rcases hq : s.m.mq with _ | ⟨c, ms⟩
        · rw [hq] at he; cases he
        · rw [hq] at he
          simp only [Option.map_some, Option.some.injEq] at he
          have hu : held g s c = true := held_msg (by rw [hq]; simp)
          have hh : hooks g s { s.m with mq := ms } = { s with m := { s.m with mq := ms } } := hooks_same rfl (fun _ => ⟨rfl, rfl, rfl, rfl⟩)
          rw [hh] at he
          refine pick' ?_ ?_
          · refine idle_step (m' := { s.m with mq := ms }) (c0 := c) h hst he' rfl (fun _ _ => rfl) hu rfl rfl ?_ ?_ ?_ ?_ ?_ (fun _ hp => hp) ?_ ?_ ?_
            · subst he; rfl
            · rw [hh]; subst he; rfl
            · rw [hh]; subst he; rfl
            · subst he; exact hst
            · intro d hd; rw [hq]; exact List.mem_cons_of_mem _ hd
            · subst he; exact fun _ hp => hp
            · subst he; exact fun _ hp => .inl hp
            · simp [uses, hq]; exact hu
          · intro hc _
            subst he
            exact ⟨fun hp => absurd hp hrun, fun hp => absurd hp hrun, fun hp => absurd hp hrun, fun _ => hc.off hrun⟩
      | told r0 keep =>
        have he' := he
        simp only [effect, hst] at he
        rcases hq : s.m.st.uq with _ | ⟨u, us⟩
        · rw [hq] at he; cases he
        · rw [hq] at he
          have hu : held g s u.c = true := held_upd (by rw [hq]; simp)
          simp only [mstep, Option.map_map, Option.map_eq_some_iff, reduceCtorEq, if_false] at he
          obtain ⟨st', hs, he⟩ := he
          obtain ⟨f1, f2, f3, f4⟩ := told_facts hq hs
          have ah := after_hooks (g := g) (s := s) (a := .user r0) f1 f4
          simp only [Function.comp, ah] at he
          refine pick' ?_ ?_
          · refine idle_step (m' := after s.m (.user r0) st') (c0 := u.c) h hst he' f1 f3 hu (f4 u.c).closed f2 ?_ ?_ ?_ ?_ (fun _ hm => hm) ?_ ?_ ?_ ?_
            · subst he; rfl
            · rw [ah]; subst he; rfl
            · rw [ah]; subst he; rfl
            · subst he; exact hst
            · intro d hd; simp [after] at hd; exact hd.1
            · subst he; exact fun _ hp => hp
            · subst he; intro d hd
              by_cases e : d = u.c
              · subst e; exact .inr hu
              · left
                cases keep <;> simp [upd_ne _ _ e] at hd
                · exact hd
                · exact hd
            · simp [uses, hq]; exact hu
          · intro hc _
            subst he
            exact clean_idle _ hrun f1 f4 hc
      | pool a0 =>
        have he' := he
        cases a0 with
        | terminate c =>
          simp only [effect] at he
          split at he
          · rename_i hc
            simp only [Bool.and_eq_true, bne_iff_ne, ne_eq] at hc
            simp only [mstep, Option.map_map, Option.map_eq_some_iff] at he
            obtain ⟨st', hs, he⟩ := he
            obtain ⟨f1, f2, f3, f4⟩ := terminate_facts hs
            have ah := after_hooks (g := g) (s := s) (a := .terminate c) f1 f4
            simp only [Function.comp, ah] at he
            refine pick' ?_ ?_
            · refine idle_step (m' := after s.m (.terminate c) st') (c0 := c) h hst he' f1 f3 (held_user hc.1) (f4 c).closed f2 ?_ ?_ ?_ ?_ (fun _ hm => hm) ?_ ?_ ?_ ?_
              · subst he; rfl
              · rw [ah]; subst he; rfl
              · rw [ah]; subst he; rfl
              · subst he; exact hst
              · intro d hd; simp [after] at hd; exact hd.1
              · subst he; exact fun _ hp => hp
              · subst he; exact fun d hd => .inl hd
              · simp [uses]; exact held_user hc.1
            · intro hc' _
              subst he
              exact clean_idle s.user hrun f1 f4 hc'
          · cases he
        | _ => simp [effect, hst] at he
      | _ => simp [effect, hst] at he
    · have hds : s.phase = .destroyed := by
        cases hp : s.phase
        · exact absurd hp hrun
        · exact absurd hp hst
        · rfl
      cases a with
      | copy c => exact hcopy c rfl
      | release c => exact hrel c rfl
      | pool a0 => exfalso; cases a0 <;> simp [effect, hds] at he
      | _ => simp [effect, hds] at he

theorem rinv_init (g : Cfg) : RInv g rinit := by
  refine ⟨⟨fun c hc => ?_, fun c _ => ⟨?_, rfl⟩, rfl⟩, fun _ => ⟨allV1_init _, fun c hc => ?_⟩, fun hp => (by cases hp), fun hp => (by cases hp)⟩
  · simp [rinit, minit, init] at hc
  · cases e : held g rinit c with
    | false => rfl
    | true =>
      rw [held_iff] at e
      simp [Held, rinit, minit, init, newConn] at e
  · simp [rinit, minit, init] at hc

theorem clean_init (g : Cfg) : Clean g rinit :=
  ⟨fun _ => allV2_init _, fun _ c hc => by simp [rinit, minit, init] at hc, fun _ e he => by simp [rinit] at he, fun hp => absurd rfl hp⟩

theorem rinv_run {g : Cfg} : ∀ (as : List RAct) (s r : RSt), RInv g s → rrun g s as = some r → RInv g r := by
  intro as
  induction as with
  | nil => intro s r h hr; cases hr; exact h
  | cons a as ih =>
    intro s r h hr
    simp only [rrun] at hr
    rcases e : rstep g s a with _ | s1
    · rw [e] at hr; cases hr
    · rw [e] at hr; exact ih s1 r (rinv_step h e).1 hr

theorem clean_run {g : Cfg} : ∀ (as : List RAct) (s r : RSt), RInv g s → Clean g s →
    (∀ p ∈ rtrace g s as, ∀ c, p.2 = .pool (.connReady c) → .dterm c ∉ p.1.m.st.wq 0) → rrun g s as = some r → Clean g r := by
  intro as
  induction as with
  | nil => intro s r _ h _ hr; cases hr; exact h
  | cons a as ih =>
    intro s r hi h hno hr
    simp only [rrun] at hr
    rcases e : rstep g s a with _ | s1
    · rw [e] at hr; cases hr
    · rw [e] at hr
      have q := rinv_step hi e
      refine ih s1 r q.1 (q.2 h (fun c hc => hno (s, a) (by simp [rtrace]) c hc)) (fun p hp => hno p (by simp [rtrace, e, hp])) hr

end ConnRef
end Salticidae
