import Verif.Model.Fatal
import Verif.Lemmas.PoolV3
namespace Salticidae
namespace Fatal
open Pool

/-- The pool with more closures in front of the dispatcher's queue. -/
def pre (l : List Task) (s : St) : St := { s with wq := upd s.wq 0 (l ++ s.wq 0) }

@[simp] theorem pre_nil (s : St) : pre [] s = s := by
  have : upd s.wq 0 ([] ++ s.wq 0) = s.wq := by funext w; by_cases e : w = 0 <;> simp [upd, e]
  unfold pre; rw [this]

theorem pre_post (l : List Task) (s : St) (w : Nat) (t : Task) : post (pre l s) w t = pre l (post s w t) := by
  simp only [post, pre, St.mk.injEq, true_and, and_true]
  funext i
  by_cases e : w = 0
  · subst e; by_cases e1 : i = 0 <;> simp [upd, e1]
  · by_cases e1 : i = w
    · subst e1; simp [upd, e]
    · by_cases e2 : i = 0
      · subst e2; simp [upd, e1]
      · simp [upd, e1, e2]

theorem pre_setConn (l : List Task) (s : St) (c : Nat) (x : Conn) : setConn (pre l s) c x = pre l (setConn s c x) := rfl

theorem pre_workerTerminate (l : List Task) (s : St) (c : Nat) : workerTerminate (pre l s) c = pre l (workerTerminate s c) := by
  simp only [workerTerminate]
  cases e : (s.conn c).worker <;> simp only [pre, e]
  exact pre_post l (setConn s c _) _ _

theorem pre_dispTerminate (l : List Task) (s : St) (c : Nat) : dispTerminate (pre l s) c = pre l (dispTerminate s c) := by
  simp only [dispTerminate]
  cases e : (s.conn c).worker with
  | some w => simp only [pre, e]; exact pre_workerTerminate l s c
  | none => simp only [pre, e]; exact pre_post l (setConn s c _) _ _

theorem pre_execTask (g : Cfg) (l : List Task) (s : St) (w : Nat) (fail : Bool) (t : Task) : execTask g (pre l s) w fail t = pre l (execTask g s w fail t) := by
  cases t with
  | feed c =>
    simp only [execTask, feed]
    split
    · rfl
    · exact pre_post l (setConn { s with nconn := upd s.nconn w (s.nconn w + 1) } c _) _ _
  | setup c =>
    simp only [execTask]
    split
    · exact pre_dispTerminate l (setConn s c _) c
    · rfl
  | wterm c =>
    simp only [execTask]
    by_cases e : (s.conn c).term = true
    · rw [if_pos (show ((pre l s).conn c).term = true from e), if_pos e]
    · rw [if_neg (show ¬ ((pre l s).conn c).term = true from e), if_neg e]
      exact pre_post l (workerTeardown s c) _ _
  | dterm c =>
    simp only [execTask]
    by_cases e : (s.conn c).term = true
    · rw [if_pos (show ((pre l s).conn c).term = true from e), if_pos e]
    · rw [if_neg (show ¬ ((pre l s).conn c).term = true from e), if_neg e]
      rfl
  | userTerm c => exact pre_dispTerminate l s c
  | del c => rfl
  | approve c r =>
    simp only [execTask]
    by_cases e : (s.conn c).term = true
    · rw [if_pos (show ((pre l s).conn c).term = true from e), if_pos e]
    · rw [if_neg (show ¬ ((pre l s).conn c).term = true from e), if_neg e]
      split
      · split
        · rfl
        · exact pre_workerTerminate l s c
      · rfl

/-- Steps other than those of the dispatcher's closures do not depend on the front of its queue. -/
theorem pre_step (g : Cfg) (l : List Task) (s : St) (a : Act) (ha : ∀ f, a ≠ .exec 0 f) : step g (pre l s) a = (step g s a).map (pre l) := by
  have hf : ∀ fd, freshFd (pre l s) fd = freshFd s fd := fun _ => rfl
  cases a with
  | accept fd =>
    simp only [step, hf, show (pre l s).listening = s.listening from rfl]
    split
    · simp only [Option.map_some, Option.some.injEq]
      exact pre_post l { s with n := s.n + 1, pool := s.pool ++ [(fd, s.n)], conn := _ } _ _
    · rfl
  | acceptFail => simp only [step, show (pre l s).listening = s.listening from rfl]; split <;> rfl
  | listen => rfl
  | connect fd ok =>
    simp only [step, hf]
    split
    · simp only [Option.map_some, Option.some.injEq]
      cases ok
      · exact pre_dispTerminate l { s with n := s.n + 1, pool := s.pool ++ [(fd, s.n)], conn := _ } _
      · rfl
    · rfl
  | connReady c =>
    simp only [step, show (pre l s).n = s.n from rfl, show (pre l s).conn = s.conn from rfl]
    split
    · simp only [Option.map_some, Option.some.injEq]
      exact pre_post l (setConn s c _) _ _
    · rfl
  | connFail c timeout =>
    simp only [step, show (pre l s).n = s.n from rfl, show (pre l s).conn = s.conn from rfl]
    split
    · simp only [Option.map_some, Option.some.injEq]
      exact pre_dispTerminate l (setConn s c _) _
    · rfl
  | terminate c =>
    simp only [step, show (pre l s).n = s.n from rfl, show (pre l s).conn = s.conn from rfl]
    split
    · simp only [Option.map_some, Option.some.injEq]
      exact pre_post l (setConn s c _) _ _
    · rfl
  | exec w fail =>
    have hw : w ≠ 0 := fun e => ha fail (by rw [e])
    have hq : (pre l s).wq w = s.wq w := by simp [pre, upd, hw]
    simp only [step, hq]
    split
    · rfl
    · rename_i t ts e
      simp only [Option.map_some, Option.some.injEq]
      rw [← pre_execTask]
      congr 1
      simp only [pre, St.mk.injEq, true_and, and_true]
      funext i
      by_cases e1 : i = w
      · subst e1; simp [upd, hw]
      · by_cases e2 : i = 0
        · subst e2; simp [upd, e1]
        · simp [upd, e1, e2]
  | user r =>
    simp only [step, show (pre l s).uq = s.uq from rfl, show (pre l s).conn = s.conn from rfl]
    split
    · rfl
    · simp only [Option.map_some, Option.some.injEq]
      split
      · split
        · exact pre_post l (setConn { s with uq := _ } _ _) _ _
        · rfl
      · rfl
  | readable c =>
    simp only [step, show (pre l s).n = s.n from rfl, show (pre l s).conn = s.conn from rfl]
    split
    · simp only [Option.map_some, Option.some.injEq]; split <;> rfl
    · rfl
  | writable c =>
    simp only [step, show (pre l s).n = s.n from rfl, show (pre l s).conn = s.conn from rfl]
    split <;> rfl
  | hsDone c =>
    simp only [step, show (pre l s).n = s.n from rfl, show (pre l s).conn = s.conn from rfl]
    split
    · simp only [Option.map_some, Option.some.injEq]
      exact pre_post l (setConn s c _) _ _
    · rfl
  | ioError c =>
    simp only [step, show (pre l s).n = s.n from rfl, show (pre l s).conn = s.conn from rfl]
    split
    · simp only [Option.map_some, Option.some.injEq]
      exact pre_workerTerminate l s c
    · rfl
  | sendBuf c =>
    simp only [step, show (pre l s).n = s.n from rfl, show (pre l s).conn = s.conn from rfl]
    split <;> rfl

/-- What connects a pool with fatal errors to one without: the closures that were dropped are still waiting there. -/
def Sim (g : Cfg) (s : HSt) (q : St) : Prop := ∃ l, q = pre l s.p ∧ (s.dead = false → l = []) ∧ ∃ as, run g init as = some q

theorem run_snoc {g : Cfg} {as : List Act} {a : Act} {s t u : St} (h : run g s as = some t) (h1 : step g t a = some u) : run g s (as ++ [a]) = some u := by
  induction as generalizing s with
  | nil => cases h; simp [run, h1]
  | cons b as ih =>
    simp only [run, List.cons_append, Option.bind_eq_some_iff] at h ⊢
    obtain ⟨v, hv, h⟩ := h
    exact ⟨v, hv, ih h⟩

/-- One step: either none of the pool without fatal errors, or one that is not a closure of the dispatcher unless there was no fatal error. -/
theorem sim_step {g : Cfg} {s t : HSt} {q : St} {a : HAct} (h : Sim g s q) (hs : hstep g s a = some t) :
    (s.dead = true → t.dead = true) ∧ ∃ q', Sim g t q' ∧ (q' = q ∨ ∃ b, a = .pool b ∧ step g q b = some q' ∧ (s.dead = true → (∀ f, b ≠ .exec 0 f))) := by
  obtain ⟨l, rfl, hl, as, hr⟩ := h
  cases a with
  | pool b =>
    simp only [hstep] at hs
    split at hs
    case isFalse => cases hs
    case isTrue ha =>
      rw [Option.map_eq_some_iff] at hs
      obtain ⟨p, hp, rfl⟩ := hs
      refine ⟨id, ?_⟩
      cases hd : s.dead with
      | false =>
        have e := hl hd
        subst e
        rw [pre_nil] at hr ⊢
        exact ⟨p, ⟨[], (pre_nil p).symm, fun _ => rfl, as ++ [b], run_snoc hr hp⟩, .inr ⟨b, rfl, hp, nofun⟩⟩
      | true =>
        have hb : ∀ f, b ≠ .exec 0 f := by
          intro f e; subst e; simp [allowed, hd] at ha
        have hq : step g (pre l s.p) b = some (pre l p) := by rw [pre_step g l s.p b hb, hp]; rfl
        exact ⟨pre l p, ⟨l, rfl, by simp [hd], as ++ [b], run_snoc hr hq⟩, .inr ⟨b, rfl, hq, fun _ => hb⟩⟩
  | fatal => cases hs; exact ⟨fun _ => rfl, _, ⟨l, rfl, by simp, as, hr⟩, .inl rfl⟩
  | drop =>
    simp only [hstep] at hs
    split at hs
    case isFalse => cases hs
    case isTrue hd =>
      split at hs
      · cases hs
      · rename_i t ts e
        cases hs
        refine ⟨id, _, ⟨l ++ [t], ?_, by simp [hd], as, hr⟩, .inl rfl⟩
        simp only [pre, St.mk.injEq, true_and, and_true]
        funext i
        by_cases e1 : i = 0
        · subst e1; simp [upd, e]
        · simp [upd, e1]
  | ends w =>
    simp only [hstep] at hs
    split at hs
    · cases hs; exact ⟨id, _, ⟨l, rfl, hl, as, hr⟩, .inl rfl⟩
    · cases hs

theorem sim_init (g : Cfg) : Sim g hinit init := ⟨[], (pre_nil _).symm, fun _ => rfl, [], rfl⟩

theorem sim_run {g : Cfg} {as : List HAct} {s t : HSt} {q : St} (h : Sim g s q) (hs : hrun g s as = some t) : ∃ q', Sim g t q' := by
  induction as generalizing s q with
  | nil => cases hs; exact ⟨q, h⟩
  | cons a as ih =>
    simp only [hrun, Option.bind_eq_some_iff] at hs
    obtain ⟨u, hu, hs⟩ := hs
    obtain ⟨_, q', hq, _⟩ := sim_step h hu
    exact ih hq hs

/-! ### Without fatal errors -/

theorem no_fatal {g : Cfg} {as : List HAct} {s t : HSt} (h : hrun g s as = some t) (hd : s.dead = false) (ha : .fatal ∉ as) : t.dead = false := by
  induction as generalizing s with
  | nil => cases h; exact hd
  | cons a as ih =>
    simp only [hrun, Option.bind_eq_some_iff] at h
    obtain ⟨u, hu, h⟩ := h
    simp only [List.mem_cons, not_or] at ha
    refine ih h ?_ ha.2
    cases a with
    | pool b =>
      simp only [hstep] at hu
      split at hu
      · rw [Option.map_eq_some_iff] at hu; obtain ⟨p, _, rfl⟩ := hu; exact hd
      · cases hu
    | fatal => exact absurd rfl ha.1
    | drop => simp [hstep, hd] at hu
    | ends w => simp [hstep, hd] at hu

/-- A connection is on its way to the callback, or has been terminated. -/
structure V5 (c : Nat) (v : V) : Prop where
  way : v.x.asked = true ∨ v.x.evConn = true ∨ v.x.handshake = true ∨ (∃ w, .feed c ∈ v.q w ∨ .setup c ∈ v.q w) ∨ (⟨c, true⟩ : Upd) ∈ v.u ∨ true ∈ v.x.cbs
  dt0 : ∀ w, .dterm c ∈ v.q w → w = 0

theorem v5_new {g : Cfg} {c : Nat} {v : V} (h : VNew g c v) : V5 c v := by
  cases h with
  | accept fd w =>
    refine ⟨.inr (.inr (.inr (.inl ⟨w, .inl (by simp)⟩))), fun w' h => ?_⟩
    by_cases e : w' = w
    · subst e; simp at h
    · simp [upd_ne _ _ e] at h
  | connect fd => exact ⟨.inr (.inl rfl), fun w h => by simp at h⟩
  | refused fd =>
    refine ⟨.inl rfl, fun w' h => ?_⟩
    by_cases e : w' = 0
    · exact e
    · simp [upd_ne _ _ e] at h

theorem dt0_post {c w : Nat} {v : V} {t : Task} (h : ∀ w, .dterm c ∈ v.q w → w = 0) (ht : t = .dterm c → w = 0) : ∀ w', .dterm c ∈ (v.post w t).q w' → w' = 0 := by
  intro w' hm
  rcases mem_post.1 hm with hm | ⟨e, hm⟩
  · exact h w' hm
  · rw [e]; exact ht hm.symm

theorem dt0_wt {c : Nat} {v : V} (h : ∀ w, .dterm c ∈ v.q w → w = 0) : ∀ w', .dterm c ∈ (vWorkerTerm v c).q w' → w' = 0 := by
  unfold vWorkerTerm
  split
  · exact dt0_post (v := v.set _) h (by simp)
  · exact h

theorem dt0_dt {c : Nat} {v : V} (h : ∀ w, .dterm c ∈ v.q w → w = 0) : ∀ w', .dterm c ∈ (vDispTerm v c).q w' → w' = 0 := by
  unfold vDispTerm
  split
  · exact dt0_wt h
  · exact dt0_post (v := v.set _) h (fun _ => rfl)

theorem wt_asked {c : Nat} {v : V} (h : v.x.worker ≠ none ∨ v.x.asked = true) : (vWorkerTerm v c).x.asked = true := by
  unfold vWorkerTerm
  split
  · rfl
  · rename_i e; exact h.resolve_left (fun n => n e)

theorem dt_asked {c : Nat} {v : V} : (vDispTerm v c).x.asked = true := by
  unfold vDispTerm
  split
  · rename_i w e; exact wt_asked (.inl (by rw [e]; simp))
  · rfl

/-- What stays on its way when a closure that is not one of these is taken and the rest of the record is kept. -/
theorem way_mono {c : Nat} {v v' : V} (h : v.x.asked = true ∨ v.x.evConn = true ∨ v.x.handshake = true ∨ (∃ w, .feed c ∈ v.q w ∨ .setup c ∈ v.q w) ∨
      (⟨c, true⟩ : Upd) ∈ v.u ∨ true ∈ v.x.cbs)
    (h1 : v.x.asked = true → v'.x.asked = true) (h2 : v.x.evConn = true → v'.x.evConn = true) (h3 : v.x.handshake = true → v'.x.handshake = true)
    (h4 : ∀ w, .feed c ∈ v.q w ∨ .setup c ∈ v.q w → .feed c ∈ v'.q w ∨ .setup c ∈ v'.q w) (h5 : (⟨c, true⟩ : Upd) ∈ v.u → (⟨c, true⟩ : Upd) ∈ v'.u)
    (h6 : true ∈ v.x.cbs → true ∈ v'.x.cbs) :
    v'.x.asked = true ∨ v'.x.evConn = true ∨ v'.x.handshake = true ∨ (∃ w, .feed c ∈ v'.q w ∨ .setup c ∈ v'.q w) ∨ (⟨c, true⟩ : Upd) ∈ v'.u ∨ true ∈ v'.x.cbs := by
  rcases h with h | h | h | ⟨w, h⟩ | h | h
  · exact .inl (h1 h)
  · exact .inr (.inl (h2 h))
  · exact .inr (.inr (.inl (h3 h)))
  · exact .inr (.inr (.inr (.inl ⟨w, h4 w h⟩)))
  · exact .inr (.inr (.inr (.inr (.inl (h5 h)))))
  · exact .inr (.inr (.inr (.inr (.inr (h6 h)))))

theorem v5_step {g : Cfg} {c : Nat} {v v' : V} {a : Act} (hdel : ∀ w, .del c ∈ v.q w → v.x.term = true) (h3 : V3 c v) (h : V5 c v) (hs : VStep g c v v' a) : V5 c v' := by
  cases hs with
  | exec w fail t ts hc hq hw =>
    have hin : t ∈ v.q w := by rw [hq]; simp
    have hp : ∀ w', .dterm c ∈ (v.pop w).q w' → w' = 0 := fun w' hm => h.dt0 w' (mem_pop hm)
    have hk : t ≠ .feed c → t ≠ .setup c → ∀ w', .feed c ∈ v.q w' ∨ .setup c ∈ v.q w' → .feed c ∈ (v.pop w).q w' ∨ .setup c ∈ (v.pop w).q w' := by
      intro n1 n2 w' hm
      rcases hm with hm | hm
      · rcases mem_of_pop hq hm with hm | ⟨_, e⟩
        · exact .inl hm
        · exact absurd e.symm n1
      · rcases mem_of_pop hq hm with hm | ⟨_, e⟩
        · exact .inr hm
        · exact absurd e.symm n2
    have hpw : ∀ n1 : t ≠ .feed c, ∀ n2 : t ≠ .setup c, V5 c (v.pop w) := fun n1 n2 => ⟨way_mono h.way id id id (hk n1 n2) id id, hp⟩
    cases t with
    | feed c' =>
      simp only [Task.conn] at hc; subst hc
      simp only [vExec]; split
      · exact ⟨.inr (.inr (.inl rfl)), hp⟩
      · exact ⟨.inr (.inr (.inr (.inl ⟨0, .inr (mem_post.2 (.inr ⟨rfl, rfl⟩))⟩))), dt0_post (v := (v.pop w).set _) hp (by simp)⟩
    | setup c' =>
      simp only [Task.conn] at hc; subst hc
      simp only [vExec]; split
      · exact ⟨.inl dt_asked, dt0_dt (v := (v.pop w).set _) hp⟩
      · exact ⟨.inr (.inr (.inr (.inr (.inl (by simp [V.rep]))))), hp⟩
    | wterm c' =>
      simp only [Task.conn] at hc; subst hc
      simp only [vExec]; split
      · exact hpw (by simp) (by simp)
      · exact ⟨.inl (h3.askd (.inr ⟨w, .inl hin⟩)), dt0_post (v := vTeardown (v.pop w)) hp (by simp)⟩
    | dterm c' =>
      simp only [Task.conn] at hc; subst hc
      simp only [vExec]; split
      · exact hpw (by simp) (by simp)
      · exact ⟨.inl (h3.askd (.inr ⟨w, .inr hin⟩)), hp⟩
    | userTerm c' => exact ⟨.inl dt_asked, dt0_dt hp⟩
    | del c' =>
      simp only [Task.conn] at hc; subst hc
      exact ⟨.inl (h3.askd (.inl (hdel w hin))), hp⟩
    | approve c' r =>
      simp only [Task.conn] at hc; subst hc
      have k := hpw (by simp) (by simp)
      simp only [vExec]; split
      · exact k
      · split
        · split
          · exact ⟨way_mono k.way id id id (fun _ => id) id id, hp⟩
          · exact ⟨.inl (wt_asked (.inl (hw rfl))), dt0_wt hp⟩
        · exact ⟨way_mono k.way id id id (fun _ => id) id id, hp⟩
  | connReady w hev =>
    exact ⟨.inr (.inr (.inr (.inl ⟨w, .inl (mem_post.2 (.inr ⟨rfl, rfl⟩))⟩))), dt0_post (v := v.set _) h.dt0 (by simp)⟩
  | connFail timeout hev => exact ⟨.inl dt_asked, dt0_dt (v := v.set _) h.dt0⟩
  | terminate => exact ⟨.inl rfl, dt0_post (v := v.set _) h.dt0 (by simp)⟩
  | userUp r w us hu hw =>
    refine ⟨.inr (.inr (.inr (.inr (.inr ?_)))), dt0_post (v := V.set _ _) h.dt0 (by simp)⟩
    simp [V.post, V.set]
  | userDown r us hu =>
    refine ⟨way_mono h.way id id id (fun _ => id) (fun hm => ?_) (fun hm => by simp [V.set, hm]), h.dt0⟩
    rw [hu] at hm
    simp only [List.mem_cons, Upd.mk.injEq, Bool.true_eq_false, and_false, false_or] at hm
    exact hm
  | readable hs ha =>
    split
    · exact ⟨way_mono h.way id id id (fun _ => id) id id, h.dt0⟩
    · exact h
  | writable hs ha => exact ⟨way_mono h.way id id id (fun _ => id) id id, h.dt0⟩
  | hsDone hs ha hh =>
    exact ⟨.inr (.inr (.inr (.inl ⟨0, .inr (mem_post.2 (.inr ⟨rfl, rfl⟩))⟩))), dt0_post (v := v.set _) h.dt0 (by simp)⟩
  | ioError hs ha hw => exact ⟨.inl (wt_asked (.inl hw)), dt0_wt h.dt0⟩
  | sendBuf hs ho hr => exact ⟨way_mono h.way id id id (fun _ => id) id id, h.dt0⟩

theorem del_term {s : St} (hi : Inv none s) {c : Nat} (hc : c < s.n) (w : Nat) (h : .del c ∈ (view s c).q w) : (s.conn c).term = true := by
  have hm : .del c ∈ s.wq w := (List.mem_filter.1 h).1
  have hw : w = 0 := Classical.byContradiction (fun e => hi.del0 w c e hm)
  subst hw
  have := (hi.conn c hc).once
  have hp := List.count_pos_iff.2 hm
  cases e : (s.conn c).term with
  | true => rfl
  | false => rw [e] at this; simp at this; omega

theorem v5_run {g : Cfg} : ∀ (as : List Act) (s s' : St), AllV1 g s → (∀ c, c < s.n → V3 c (view s c) ∧ V5 c (view s c)) →
    run g s as = some s' → ∀ c, c < s'.n → V5 c (view s' c) := by
  intro as
  induction as with
  | nil => intro s s' _ hi h c hc; cases h; exact (hi c hc).2
  | cons a as ih =>
    intro s s' h1 hi h
    simp only [run] at h
    rcases e : step g s a with _ | s1
    · rw [e] at h; cases h
    · rw [e] at h
      refine ih s1 s' (allV1_step h1 e) (fun c hc => ?_) h
      obtain ⟨_, h2, h3⟩ := step_view h1.base e
      by_cases e' : c < s.n
      · rcases h2 c e' with h2 | h2
        · rw [h2]; exact hi c e'
        · exact ⟨v3_step (h1.v1 c e') (hi c e').1 h2, v5_step (del_term h1.base e') (hi c e').1 (hi c e').2 h2⟩
      · exact ⟨v3_new (h3 c (by omega) hc), v5_new (h3 c (by omega) hc)⟩

theorem reached {g : Cfg} {as : List Act} {s : St} (h : run g init as = some s) : AllV1 g s ∧ (∀ c, c < s.n → V3 c (view s c) ∧ V5 c (view s c)) :=
  ⟨allV1_run as init s (allV1_init g) h, fun c hc => ⟨allV3_run as init s (allV1_init g) (by simp [init]) h c hc,
    v5_run as init s (allV1_init g) (by simp [init]) h c hc⟩⟩

/-! ### After a fatal error -/

/-- The callback has not been told of a connection and its descriptor has not been closed. -/
structure Deaf (v : V) : Prop where
  cbs : v.x.cbs = []
  u : v.u = []
  open' : v.x.closed = 0

theorem deaf_new {g : Cfg} {c : Nat} {v : V} (h : VNew g c v) : Deaf v := by
  cases h <;> exact ⟨rfl, rfl, rfl⟩

theorem deaf_wt {c : Nat} {v : V} (h : Deaf v) : Deaf (vWorkerTerm v c) := by
  unfold vWorkerTerm; split
  · exact ⟨h.cbs, h.u, h.open'⟩
  · exact h

theorem deaf_dt {c : Nat} {v : V} (h : Deaf v) : Deaf (vDispTerm v c) := by
  unfold vDispTerm; split
  · exact deaf_wt h
  · exact ⟨h.cbs, h.u, h.open'⟩

theorem wt_closed {c : Nat} {v : V} : (vWorkerTerm v c).x.closed = v.x.closed := by unfold vWorkerTerm; split <;> rfl
theorem dt_closed {c : Nat} {v : V} : (vDispTerm v c).x.closed = v.x.closed := by
  unfold vDispTerm; split
  · exact wt_closed
  · rfl

theorem closed_step {g : Cfg} {c : Nat} {v v' : V} {a : Act} (ha : ∀ f, a ≠ .exec 0 f) (hd : ∀ w, .del c ∈ v.q w → w = 0) (h5 : V5 c v)
    (hs : VStep g c v v' a) : v'.x.closed = v.x.closed := by
  cases hs with
  | exec w fail t ts hc hq hw =>
    have hin : t ∈ v.q w := by rw [hq]; simp
    have h0 : w ≠ 0 := fun e => ha fail (by rw [e])
    cases t with
    | feed c' => simp only [vExec]; split <;> rfl
    | setup c' =>
      simp only [vExec]; split
      · exact dt_closed
      · rfl
    | wterm c' => simp only [vExec]; split <;> rfl
    | dterm c' => simp only [Task.conn] at hc; subst hc; exact absurd (h5.dt0 w hin) h0
    | userTerm c' => exact dt_closed
    | del c' => simp only [Task.conn] at hc; subst hc; exact absurd (hd w hin) h0
    | approve c' r =>
      simp only [vExec]; split
      · rfl
      · split
        · split
          · rfl
          · exact wt_closed
        · rfl
  | connReady w hev => rfl
  | connFail timeout hev => exact dt_closed
  | terminate => rfl
  | userUp r w us hu hw => rfl
  | userDown r us hu => rfl
  | readable hs ha => split <;> rfl
  | writable hs ha => rfl
  | hsDone hs ha hh => rfl
  | ioError hs ha hw => exact wt_closed
  | sendBuf hs ho hr => rfl

theorem deaf_step {g : Cfg} {c : Nat} {v v' : V} {a : Act} (ha : ∀ f, a ≠ .exec 0 f) (h1 : V1 g c v) (hd : ∀ w, .del c ∈ v.q w → w = 0) (h5 : V5 c v)
    (h : Deaf v) (hs : VStep g c v v' a) : Deaf v' := by
  have hcl := closed_step ha hd h5 hs
  cases hs with
  | exec w fail t ts hc hq hw =>
    have hin : t ∈ v.q w := by rw [hq]; simp
    have h0 : w ≠ 0 := fun e => ha fail (by rw [e])
    have hp : Deaf (v.pop w) := ⟨h.cbs, h.u, h.open'⟩
    cases t with
    | feed c' => simp only [vExec]; split <;> exact ⟨h.cbs, h.u, h.open'⟩
    | setup c' => simp only [Task.conn] at hc; subst hc; exact absurd (h1.set0 w hin) h0
    | wterm c' => simp only [vExec]; split <;> exact ⟨h.cbs, h.u, h.open'⟩
    | dterm c' => simp only [Task.conn] at hc; subst hc; exact absurd (h5.dt0 w hin) h0
    | userTerm c' => exact deaf_dt hp
    | del c' => simp only [Task.conn] at hc; subst hc; exact absurd (hd w hin) h0
    | approve c' r =>
      simp only [vExec]; split
      · exact hp
      · split
        · split
          · exact ⟨h.cbs, h.u, h.open'⟩
          · exact deaf_wt hp
        · exact ⟨h.cbs, h.u, h.open'⟩
  | connReady w hev => exact ⟨h.cbs, h.u, h.open'⟩
  | connFail timeout hev => exact deaf_dt ⟨h.cbs, h.u, h.open'⟩
  | terminate => exact ⟨h.cbs, h.u, h.open'⟩
  | userUp r w us hu hw => rw [h.u] at hu; cases hu
  | userDown r us hu => rw [h.u] at hu; cases hu
  | readable hs ha => split <;> exact ⟨h.cbs, h.u, h.open'⟩
  | writable hs ha => exact ⟨h.cbs, h.u, h.open'⟩
  | hsDone hs ha hh => exact ⟨h.cbs, h.u, h.open'⟩
  | ioError hs ha hw => exact deaf_wt h
  | sendBuf hs ho hr => exact ⟨h.cbs, h.u, h.open'⟩

/-- From a fatal error on: no connection is closed, and none that is new is reported. -/
theorem after_run {g : Cfg} {as : List HAct} {s t : HSt} {q : St} (n : Nat) (k : Nat → Nat) (h : Sim g s q) (hd : s.dead = true) (hn : n ≤ s.p.n)
    (hold : ∀ c, c < n → (s.p.conn c).closed = k c) (hnew : ∀ c, n ≤ c → c < s.p.n → Deaf (view q c)) (hs : hrun g s as = some t) :
    ∃ q', Sim g t q' ∧ t.dead = true ∧ n ≤ t.p.n ∧ (∀ c, c < n → (t.p.conn c).closed = k c) ∧ ∀ c, n ≤ c → c < t.p.n → Deaf (view q' c) := by
  induction as generalizing s q with
  | nil => cases hs; exact ⟨q, h, hd, hn, hold, hnew⟩
  | cons a as ih =>
    simp only [hrun, Option.bind_eq_some_iff] at hs
    obtain ⟨u, hu, hs⟩ := hs
    obtain ⟨hd', q', hq', hor⟩ := sim_step h hu
    have hq := h
    obtain ⟨l, e1, _, bs, hr⟩ := hq
    have hqq := hq'
    obtain ⟨l', e1', _, _, _⟩ := hqq
    have ec : ∀ (x : St) (l : List Task), (pre l x).conn = x.conn ∧ (pre l x).n = x.n := fun _ _ => ⟨rfl, rfl⟩
    have c1 : q.conn = s.p.conn ∧ q.n = s.p.n := by rw [e1]; exact ec _ _
    have c2 : q'.conn = u.p.conn ∧ q'.n = u.p.n := by rw [e1']; exact ec _ _
    rcases hor with e | ⟨b, rfl, hb, hne⟩
    · subst e
      refine ih hq' (hd' hd) (by rw [← c2.2, c1.2]; exact hn) (fun c hc => ?_) (fun c h1 h2 => hnew c h1 (by rw [← c1.2, c2.2]; exact h2)) hs
      rw [← c2.1, c1.1]; exact hold c hc
    · obtain ⟨r1, r2⟩ := reached hr
      obtain ⟨v1, v2, v3⟩ := step_view r1.base hb
      have hdel : ∀ c w, .del c ∈ (view q c).q w → w = 0 := fun c w hm =>
        Classical.byContradiction (fun e => r1.base.del0 w c e (List.mem_filter.1 hm).1)
      refine ih hq' (hd' hd) (by rw [← c2.2]; rw [← c1.2] at hn; omega) (fun c hc => ?_) (fun c h1 h2 => ?_) hs
      · have hcq : c < q.n := by rw [← c1.2] at hn; omega
        rw [← c2.1, ← hold c hc, ← c1.1]
        rcases v2 c hcq with e | e
        · exact congrArg (fun v => v.x.closed) e
        · exact closed_step (hne hd) (hdel c) (r2 c hcq).2 e
      · by_cases hcq : c < q.n
        · rcases v2 c hcq with e | e
          · rw [e]; exact hnew c h1 (by rw [← c1.2]; exact hcq)
          · exact deaf_step (hne hd) (r1.v1 c hcq) (hdel c) (r2 c hcq).2 (hnew c h1 (by rw [← c1.2]; exact hcq)) e
        · exact deaf_new (v3 c (by omega) (by rw [c2.2]; exact h2))

/-! ### stop -/

theorem finalize_pre (l : List Task) (s : St) : finalize (pre l s) = pre l (finalize s) := by
  unfold finalize
  show (s.pool).foldl _ (pre l s) = _
  generalize s.pool = es
  induction es generalizing s with
  | nil => rfl
  | cons e es ih =>
    rw [List.foldl_cons, List.foldl_cons, ← ih]
    rfl

end Fatal
end Salticidae
