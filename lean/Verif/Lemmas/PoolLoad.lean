import Verif.Lemmas.PoolV2
import Verif.Spec.Pool
namespace Salticidae
namespace Pool
open Spec.Pool

theorem countP_range_same {n : Nat} {P Q : Nat → Bool} (h : ∀ d, d < n → Q d = P d) :
    (List.range n).countP Q = (List.range n).countP P := by
  apply List.countP_congr
  intro d hd
  rw [h d (List.mem_range.1 hd)]

theorem countP_range_change {n c : Nat} {P Q : Nat → Bool} (hc : c < n) (h : ∀ d, d < n → d ≠ c → Q d = P d) :
    (List.range n).countP Q + (P c).toNat = (List.range n).countP P + (Q c).toNat := by
  induction n with
  | zero => omega
  | succ n ih =>
    rw [List.range_succ, List.countP_append, List.countP_append]
    simp only [List.countP_cons, List.countP_nil, Nat.zero_add]
    by_cases e : c = n
    · subst e
      rw [countP_range_same (fun d hd => h d (by omega) (by omega))]
      cases P c <;> cases Q c <;> simp
    · have := ih (by omega) (fun d hd hne => h d (by omega) hne)
      have e2 := h n (by omega) (fun h => e h.symm)
      rw [e2]
      omega

structure AllV2 (g : Cfg) (s : St) : Prop where
  v1 : AllV1 g s
  v2 : ∀ c, c < s.n → V2 c (view s c)
  load : ∀ w, s.nconn w = (served s w : Int)

theorem allV2_init (g : Cfg) : AllV2 g init := ⟨allV1_init g, by simp [init], by intro w; simp [init, served]⟩

theorem serves_view {s : St} {w c : Nat} : Serves s w c = ((view s c).x.worker = some w && (view s c).x.fed && !(view s c).x.term) := rfl

theorem feed_facts {g : Cfg} {c w : Nat} {v : V} (h1 : V1 g c v) (h : V2 c v) (hin : .feed c ∈ v.q w) :
    v.x.worker = some w ∧ v.x.fed = false ∧ v.x.term = false := by
  have hw := h1.feedW w hin
  have hcnt : 0 < (v.q w).count (.feed c) := List.count_pos_iff.2 hin
  have hf := h.feedc w hw
  have hfed : v.x.fed = false := by cases e : v.x.fed <;> simp [e] at hf ⊢; omega
  refine ⟨hw, hfed, ?_⟩
  cases e : v.x.term with
  | false => rfl
  | true => have := h.termFed e (by rw [hw]; simp); rw [hfed] at this; cases this

theorem wterm_facts {g : Cfg} {c w : Nat} {v : V} {ts : List Task} (h1 : V1 g c v) (h : V2 c v) (hq : v.q w = .wterm c :: ts) :
    v.x.worker = some w ∧ v.x.fed = true := by
  have hw := h1.wtW w (by rw [hq]; simp)
  refine ⟨hw, ?_⟩
  have hnf : .feed c ∉ v.q w := by
    intro hm
    have := h.ord1 w
    rw [hq, List.pairwise_cons] at this
    rw [hq] at hm
    rcases List.mem_cons.1 hm with hm | hm
    · simp at hm
    · exact this.1 _ hm ⟨rfl, rfl⟩
  have := h.feedc w hw
  rw [List.count_eq_zero.2 hnf] at this
  cases e : v.x.fed <;> simp [e] at this ⊢

theorem vDispTerm_x (v : V) (c : Nat) : (vDispTerm v c).x.worker = v.x.worker ∧ (vDispTerm v c).x.fed = v.x.fed ∧ (vDispTerm v c).x.term = v.x.term := by
  unfold vDispTerm vWorkerTerm
  rcases e : v.x.worker with _ | w <;> simp [V.set, V.post, e]
theorem vWorkerTerm_x (v : V) (c : Nat) : (vWorkerTerm v c).x.worker = v.x.worker ∧ (vWorkerTerm v c).x.fed = v.x.fed ∧ (vWorkerTerm v c).x.term = v.x.term := by
  unfold vWorkerTerm
  rcases e : v.x.worker with _ | w <;> simp [V.set, V.post, e]

theorem dispTerminate_nconn (s : St) (c : Nat) : (dispTerminate s c).nconn = s.nconn := by
  unfold dispTerminate workerTerminate; split <;> (try split) <;> rfl
theorem workerTerminate_nconn (s : St) (c : Nat) : (workerTerminate s c).nconn = s.nconn := by
  unfold workerTerminate; split <;> rfl

/-- A closure that is not `feed` or a termination leaves the load alone. -/
theorem exec_load {g : Cfg} {s : St} {w : Nat} {fail : Bool} {t : Task} (h1 : ∀ c, t ≠ .feed c) (h2 : ∀ c, t ≠ .wterm c)
    (h3 : ∀ c, t ≠ .dterm c) : (execTask g s w fail t).nconn = s.nconn := by
  cases t with
  | feed c => exact absurd rfl (h1 c)
  | wterm c => exact absurd rfl (h2 c)
  | dterm c => exact absurd rfl (h3 c)
  | setup c => simp only [execTask]; split <;> simp [dispTerminate_nconn, setConn]
  | userTerm c => exact dispTerminate_nconn s c
  | del c => rfl
  | approve c r =>
    simp only [execTask]; split
    · rfl
    · split
      · split
        · rfl
        · exact workerTerminate_nconn s c
      · rfl

theorem vexec_x {g : Cfg} {v : V} {c : Nat} {fail : Bool} {t : Task} (h1 : ∀ c, t ≠ .feed c) (h2 : ∀ c, t ≠ .wterm c)
    (h3 : ∀ c, t ≠ .dterm c) : (vExec g v c fail t).x.worker = v.x.worker ∧ (vExec g v c fail t).x.fed = v.x.fed ∧
      (vExec g v c fail t).x.term = v.x.term := by
  cases t with
  | feed c => exact absurd rfl (h1 c)
  | wterm c => exact absurd rfl (h2 c)
  | dterm c => exact absurd rfl (h3 c)
  | setup c' =>
    simp only [vExec]; split
    · exact vDispTerm_x _ c
    · exact ⟨rfl, rfl, rfl⟩
  | userTerm c' => exact vDispTerm_x v c
  | del c' => exact ⟨rfl, rfl, rfl⟩
  | approve c' r =>
    simp only [vExec]; split
    · exact ⟨rfl, rfl, rfl⟩
    · split
      · split
        · exact ⟨rfl, rfl, rfl⟩
        · exact vWorkerTerm_x v c
      · exact ⟨rfl, rfl, rfl⟩

theorem load_same {s s' : St} (hn : s'.n = s.n) (h : ∀ c, c < s.n → ∀ w, Serves s' w c = Serves s w c) (w : Nat) :
    served s' w = served s w := by
  unfold served; rw [hn]; exact countP_range_same (fun d hd => h d hd w)

/-- Steps other than executing a closure do not change whom a worker serves. -/
theorem serves_vstep {g : Cfg} {c : Nat} {v v' : V} {a : Act} (h1 : V1 g c v) (h2 : V2 c v) (hs : VStep g c v v' a)
    (ha : ∀ w f, a ≠ .exec w f) (w : Nat) :
    (v'.x.worker = some w && v'.x.fed && !v'.x.term : Bool) = (v.x.worker = some w && v.x.fed && !v.x.term : Bool) := by
  cases hs with
  | exec w fail t ts hc hq hw => exact absurd rfl (ha w fail)
  | connReady w' hev => have := h2.fedN (h1.ev hev); simp [V.set, V.post, this]
  | connFail timeout hev => obtain ⟨e1, e2, e3⟩ := vDispTerm_x (v.set { v.x with evConn := !timeout }) c; rw [e1, e2, e3]; rfl
  | terminate => rfl
  | userUp r w us hu hw => rfl
  | userDown r us hu => rfl
  | readable hs ha => split <;> rfl
  | writable hs ha => rfl
  | hsDone hs ha hh => rfl
  | ioError hs ha hw => obtain ⟨e1, e2, e3⟩ := vWorkerTerm_x v c; rw [e1, e2, e3]
  | sendBuf hs ho hr => rfl

theorem load_step {g : Cfg} {s s' : St} {a : Act} (h : AllV2 g s) (hs : step g s a = some s') (w : Nat) :
    s'.nconn w = (served s' w : Int) := by
  obtain ⟨hn, hv, hnew⟩ := step_view h.v1.base hs
  by_cases hex : ∃ we f, a = .exec we f
  · obtain ⟨we, f, rfl⟩ := hex
    simp only [step] at hs
    rcases hq : s.wq we with _ | ⟨t, ts⟩
    · rw [hq] at hs; cases hs
    · rw [hq] at hs
      simp only [Option.some.injEq] at hs
      have hc : t.conn < s.n := h.v1.base.valid we t (by rw [hq]; simp)
      have hn' : s'.n = s.n := by
        subst hs
        cases t <;> simp only [execTask, feed, dispTerminate, workerTerminate, delConn, releaseConn, workerTeardown, post, setConn] <;>
          (repeat' split) <;> rfl
      have hne : ∀ d, d ≠ t.conn → view s' d = view s d := by
        intro d hd; subst hs; rw [view_exec_ne hd, view_pop_ne hq hd]
      obtain ⟨hvp, ts', hvq⟩ := view_pop hq
      have hw : t.needsW = true → (s.conn t.conn).worker ≠ none := fun hn =>
        (h.v1.base.conn _ hc).needW (.inl ⟨we, t, by rw [hq]; simp, hn, rfl⟩)
      have hself : view s' t.conn = vExec g ((view s t.conn).pop we) t.conn f t := by
        subst hs; rw [view_exec (by simpa using hw), hvp]
      have hchg := countP_range_change (n := s.n) (c := t.conn) (P := Serves s w) (Q := Serves s' w) hc
        (fun d _ hd => by rw [serves_view, serves_view, hne d hd])
      have h1 := h.v1.v1 t.conn hc
      have h2 := h.v2 t.conn hc
      have hl := h.load w
      have hserv : served s' w = (List.range s.n).countP (Serves s' w) := by unfold served; rw [hn']
      have hserv0 : served s w = (List.range s.n).countP (Serves s w) := rfl
      by_cases hf : ∃ c, t = .feed c
      · obtain ⟨c, rfl⟩ := hf
        simp only [Task.conn] at *
        obtain ⟨f1, f2, f3⟩ := feed_facts h1 h2 (by rw [hvq]; simp)
        have e1 : Serves s w c = false := by rw [serves_view, f2]; simp
        have e2 : Serves s' w c = decide (we = w) := by
          rw [serves_view, hself]
          simp only [vExec]
          split <;> simp [V.set, V.pop, V.post, f1, f3]
        have e3 : s'.nconn = upd s.nconn we (s.nconn we + 1) := by
          subst hs; simp only [execTask, feed]; split <;> rfl
        rw [e1, e2] at hchg
        rw [e3, hserv]
        by_cases e : w = we
        · subst e
          rw [upd_same, hl, hserv0]
          simp at hchg
          omega
        · rw [upd_ne _ _ e, hl, hserv0]
          have : ¬ we = w := fun h => e h.symm
          simp [this] at hchg
          omega
      · by_cases hwt : ∃ c, t = .wterm c
        · obtain ⟨c, rfl⟩ := hwt
          simp only [Task.conn] at *
          obtain ⟨f1, f2⟩ := wterm_facts h1 h2 hvq
          have f1' : (s.conn c).worker = some we := f1
          cases htm : (s.conn c).term with
          | true =>
            have e3 : s'.nconn = s.nconn := by subst hs; simp [execTask, htm]
            have htm' : ((view s c).pop we).x.term = true := htm
            have e4 : Serves s' w c = Serves s w c := by
              have e : vExec g ((view s c).pop we) c f (.wterm c) = (view s c).pop we := if_pos htm'
              rw [serves_view, serves_view, hself, e]; rfl
            rw [e4] at hchg
            rw [e3, hserv, hl, hserv0]
            omega
          | false =>
            have htm' : ((view s c).pop we).x.term = false := htm
            have e3 : s'.nconn = upd s.nconn we (s.nconn we - 1) := by
              subst hs; simp [execTask, htm, workerTeardown, post, f1']
            have e4 : Serves s' w c = false := by
              have e : vExec g ((view s c).pop we) c f (.wterm c) = (vTeardown ((view s c).pop we)).post 0 (.del c) :=
                if_neg (by rw [htm']; simp)
              rw [serves_view, hself, e]
              simp [vTeardown, V.set, V.post]
            have e5 : Serves s w c = decide (we = w) := by
              rw [serves_view, f1, f2]
              have : (view s c).x.term = false := htm
              rw [this]; simp
            rw [e4, e5] at hchg
            rw [e3, hserv]
            by_cases e : w = we
            · subst e
              rw [upd_same, hl, hserv0]
              simp at hchg
              omega
            · rw [upd_ne _ _ e, hl, hserv0]
              have : ¬ we = w := fun h => e h.symm
              simp [this] at hchg
              omega
        · by_cases hdt : ∃ c, t = .dterm c
          · obtain ⟨c, rfl⟩ := hdt
            simp only [Task.conn] at *
            obtain ⟨f1, f2⟩ := h2.dt we (by rw [hvq]; simp)
            have f1' : (s.conn c).worker = none := f1
            have e3 : s'.nconn = s.nconn := by
              subst hs
              simp only [execTask]
              split
              · rfl
              · simp [delConn, releaseConn, setConn, workerTeardown, f1']
            have e4 : Serves s w c = false := by rw [serves_view, f1]; simp
            have e5 : Serves s' w c = false := by
              rw [serves_view, hself]
              simp only [vExec]
              split <;> simp [vDel, vTeardown, V.set, V.rep, V.pop, f1]
            rw [e4, e5] at hchg
            rw [e3, hserv, hl, hserv0]
            omega
          · have g1 : ∀ c, t ≠ .feed c := fun c e => hf ⟨c, e⟩
            have g2 : ∀ c, t ≠ .wterm c := fun c e => hwt ⟨c, e⟩
            have g3 : ∀ c, t ≠ .dterm c := fun c e => hdt ⟨c, e⟩
            have e3 : s'.nconn = s.nconn := by subst hs; exact exec_load g1 g2 g3
            have e4 : Serves s' w t.conn = Serves s w t.conn := by
              rw [serves_view, serves_view, hself]
              obtain ⟨x1, x2, x3⟩ := vexec_x (g := g) (v := (view s t.conn).pop we) (c := t.conn) (fail := f) g1 g2 g3
              rw [x1, x2, x3]; rfl
            rw [e4] at hchg
            rw [e3, hserv, hl, hserv0]
            omega
  · have hna : ∀ w f, a ≠ .exec w f := fun w f e => hex ⟨w, f, e⟩
    have hnc : s'.nconn = s.nconn := by
      cases a <;> simp only [step] at hs
      case exec w f => exact absurd rfl (hna w f)
      case user r =>
        rcases hq : s.uq with _ | ⟨⟨c, connected⟩, us⟩
        · rw [hq] at hs; cases hs
        · rw [hq] at hs
          simp only [Option.some.injEq] at hs
          subst hs
          split
          · split <;> rfl
          · rfl
      case listen => cases hs; rfl
      case connect fd ok => split at hs <;> cases hs; cases ok <;> simp [dispTerminate_nconn]
      case connFail => split at hs <;> cases hs; simp [dispTerminate_nconn, setConn]
      case ioError => split at hs <;> cases hs; simp [workerTerminate_nconn]
      case readable => split at hs <;> cases hs; split <;> rfl
      all_goals (split at hs <;> cases hs; rfl)
    have hold : ∀ c, c < s.n → Serves s' w c = Serves s w c := by
      intro c hc
      rw [serves_view, serves_view]
      rcases hv c hc with hv | hv
      · rw [hv]
      · exact serves_vstep (h.v1.v1 c hc) (h.v2 c hc) hv hna w
    have hnews : ∀ c, s.n ≤ c → c < s'.n → Serves s' w c = false := by
      intro c h1 h2
      rw [serves_view]
      have := hnew c h1 h2
      generalize view s' c = v at this ⊢
      cases this <;> simp [newConn]
    rw [hnc, h.load w]
    unfold served
    obtain ⟨k, hk⟩ := Nat.le.dest hn
    rw [← hk, List.range_add, List.countP_append, countP_range_same hold]
    have : (List.map (fun x => s.n + x) (List.range k)).countP (Serves s' w) = 0 := by
      rw [List.countP_eq_zero]
      intro c hc
      obtain ⟨j, hj, rfl⟩ := List.mem_map.1 hc
      have := List.mem_range.1 hj
      rw [hnews _ (by omega) (by omega)]; simp
    rw [this]; simp

theorem allV2_step {g : Cfg} {s s' : St} {a : Act} (h : AllV2 g s) (hs : step g s a = some s')
    (hc : ∀ c, a = .connReady c → .dterm c ∉ s.wq 0) : AllV2 g s' := by
  obtain ⟨_, h2, h3⟩ := step_view h.v1.base hs
  refine ⟨allV1_step h.v1 hs, fun c hcn => ?_, load_step h hs⟩
  by_cases e : c < s.n
  · rcases h2 c e with h2 | h2
    · rw [h2]; exact h.v2 c e
    · exact v2_step (h.v1.v1 c e) (h.v2 c e) (vonce_of_inv h.v1.base e)
        (fun ha hm => hc c ha (List.mem_filter.1 hm).1) h2
  · exact v2_new (h3 c (by omega) hcn)

theorem allV2_run {g : Cfg} : ∀ (as : List Act) (s s' : St), AllV2 g s →
    (∀ p ∈ trace g s as, ∀ c, p.2 = .connReady c → .dterm c ∉ p.1.wq 0) → run g s as = some s' → AllV2 g s' := by
  intro as
  induction as with
  | nil => intro s s' hi _ h; cases h; exact hi
  | cons a as ih =>
    intro s s' hi hc h
    simp only [run] at h
    rcases e : step g s a with _ | s1
    · rw [e] at h; cases h
    · rw [e] at h
      simp only [trace, e] at hc
      exact ih s1 s' (allV2_step hi e (hc (s, a) (by simp))) (fun p hp => hc p (List.mem_cons_of_mem _ hp)) h

end Pool
end Salticidae
