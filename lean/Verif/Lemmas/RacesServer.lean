import Verif.Lemmas.RacesRun
namespace Salticidae
namespace Races
open Spec.Races
open Pool (Cfg Task Upd)

/-- Every connection was accepted. -/
def Acpt (s : Pool.St) : Prop := ∀ c, (s.conn c).active = false ∧ (s.conn c).evConn = false

theorem acpt_set {s : Pool.St} {c : Nat} {x : Pool.Conn} (h : Acpt s) (h1 : x.active = false) (h2 : x.evConn = false) : Acpt (Pool.setConn s c x) := by
  intro d
  by_cases e : d = c
  · subst e; simp [Pool.setConn, h1, h2]
  · simp only [Pool.setConn, Pool.upd_ne _ _ e]; exact h d

theorem acpt_post {s : Pool.St} {w : Nat} {t : Task} (h : Acpt s) : Acpt (Pool.post s w t) := h
theorem acpt_conn {s s' : Pool.St} (h : Acpt s) (e : s'.conn = s.conn) : Acpt s' := by intro c; rw [e]; exact h c

theorem acpt_wt {s : Pool.St} {c : Nat} (h : Acpt s) : Acpt (Pool.workerTerminate s c) := by
  simp only [Pool.workerTerminate]
  split
  · exact acpt_post (acpt_set h (h c).1 (h c).2)
  · exact acpt_conn h rfl

theorem acpt_dt {s : Pool.St} {c : Nat} (h : Acpt s) : Acpt (Pool.dispTerminate s c) := by
  simp only [Pool.dispTerminate]
  split
  · exact acpt_wt h
  · exact acpt_post (acpt_set h (h c).1 (h c).2)

theorem acpt_td {s : Pool.St} {c : Nat} (h : Acpt s) : Acpt (Pool.workerTeardown s c) :=
  acpt_conn (acpt_set (c := c) (x := { s.conn c with term := true, sock := false, armed := false, sendOn := false, wDown := (s.conn c).wDown + 1 }) h (h c).1 (h c).2) rfl

theorem acpt_rel {s : Pool.St} {c : Nat} (h : Acpt s) : Acpt (Pool.releaseConn s c) := acpt_set h (h c).1 rfl

theorem acpt_del {s : Pool.St} {c : Nat} (h : Acpt s) : Acpt (Pool.delConn s c) := by
  simp only [Pool.delConn]
  exact acpt_rel (acpt_conn h rfl)

theorem acpt_fin {s : Pool.St} (h : Acpt s) : Acpt (Pool.finalize s) := by
  have : ∀ (l : List (Nat × Nat)) (s : Pool.St), Acpt s → Acpt (l.foldl (fun s e => Pool.releaseConn (Pool.workerTeardown s e.2) e.2) s) := by
    intro l
    induction l with
    | nil => intro s h; exact h
    | cons e l ih => intro s h; exact ih _ (acpt_rel (acpt_td h))
  exact this _ _ h

theorem acpt_exec {g : Cfg} {s : Pool.St} {w : Nat} {f : Bool} {t : Task} (h : Acpt s) : Acpt (Pool.execTask g s w f t) := by
  cases t with
  | feed c =>
    simp only [Pool.execTask, Pool.feed]
    split
    · exact acpt_set (acpt_conn h rfl) (h c).1 (h c).2
    · exact acpt_post (acpt_set (acpt_conn h rfl) (h c).1 (h c).2)
  | setup c =>
    simp only [Pool.execTask]
    have h1 := acpt_set (c := c) (x := { s.conn c with dSetup := (s.conn c).dSetup + 1 }) h (h c).1 (h c).2
    split
    · exact acpt_dt h1
    · exact acpt_conn h1 rfl
  | wterm c =>
    simp only [Pool.execTask]; split
    · exact h
    · exact acpt_post (acpt_td h)
  | dterm c =>
    simp only [Pool.execTask]; split
    · exact h
    · exact acpt_del (acpt_td h)
  | userTerm c => exact acpt_dt h
  | del c => exact acpt_del h
  | approve c b =>
    simp only [Pool.execTask]; split
    · exact h
    · split
      · split
        · exact acpt_set h (h c).1 (h c).2
        · exact acpt_wt h
      · exact acpt_set h (h c).1 (h c).2

theorem acpt_step {g : Cfg} {s s' : Pool.St} {a : Pool.Act} (h : Acpt s) (ha : ∀ fd ok, a ≠ .connect fd ok) (hs : Pool.step g s a = some s') : Acpt s' := by
  cases a with
  | connect fd ok => exact absurd rfl (ha fd ok)
  | accept fd =>
    simp only [Pool.step] at hs
    split at hs
    · cases hs
      exact acpt_post (acpt_conn (acpt_set (c := s.n) (x := { Pool.newConn fd false with worker := some (Pool.selectWorker g.nw (Pool.loads s)) }) h rfl rfl) rfl)
    · cases hs
  | acceptFail => simp only [Pool.step] at hs; split at hs <;> cases hs; exact acpt_conn h rfl
  | listen => simp only [Pool.step] at hs; cases hs; exact acpt_conn h rfl
  | connReady c => simp [Pool.step, (h c).2] at hs
  | connFail c t => simp [Pool.step, (h c).2] at hs
  | terminate c => simp only [Pool.step] at hs; split at hs <;> cases hs; exact acpt_post (acpt_set h (h c).1 (h c).2)
  | exec w f =>
    simp only [Pool.step] at hs
    split at hs
    · cases hs
    · cases hs; exact acpt_exec (acpt_conn h rfl)
  | user b =>
    simp only [Pool.step] at hs
    split at hs
    · cases hs
    · rename_i c u us hq
      cases hs
      have h0 : Acpt { s with uq := us } := acpt_conn h rfl
      split
      · split
        · exact acpt_post (acpt_set h0 (h c).1 (h c).2)
        · refine acpt_conn (s := Pool.setConn { s with uq := us } c _) (acpt_set h0 ?_ ?_) rfl
          · exact (h c).1
          · exact (h c).2
      · exact acpt_set h0 (h c).1 (h c).2
  | readable c =>
    simp only [Pool.step] at hs; split at hs <;> cases hs
    split
    · exact acpt_set h (h c).1 (h c).2
    · exact h
  | writable c => simp only [Pool.step] at hs; split at hs <;> cases hs; exact acpt_set h (h c).1 (h c).2
  | hsDone c => simp only [Pool.step] at hs; split at hs <;> cases hs; exact acpt_post (acpt_set h (h c).1 (h c).2)
  | ioError c => simp only [Pool.step] at hs; split at hs <;> cases hs; exact acpt_wt h
  | sendBuf c => simp only [Pool.step] at hs; split at hs <;> cases hs; exact acpt_set h (h c).1 (h c).2

theorem server_step {g : Cfg} {r r' : St} {a : Act} (h : Acpt r.pool ∧ ∀ c, r.held c = false) (ha : ∀ fd ok, a ≠ .pool (.connect fd ok))
    (hs : step g r a = some r') : Acpt r'.pool ∧ ∀ c, r'.held c = false := by
  cases a with
  | pool a =>
    simp only [step] at hs
    split at hs
    · obtain ⟨s', e, rfl⟩ := Option.map_eq_some_iff.1 hs
      exact ⟨acpt_step h.1 (fun fd ok e => ha fd ok (by rw [e])) e, h.2⟩
    · cases hs
  | sync c => simp [step, (h.1 c).1] at hs
  | getInfo c => simp only [step] at hs; split at hs <;> cases hs; exact h
  | getCert c => simp only [step] at hs; split at hs <;> cases hs; exact h
  | stop => simp only [step] at hs; split at hs <;> cases hs; exact ⟨acpt_fin h.1, h.2⟩

theorem server_proper {g : Cfg} : ∀ (as : List Act) (r : St), (Acpt r.pool ∧ ∀ c, r.held c = false) → (∀ a ∈ as, ∀ fd ok, a ≠ .pool (.connect fd ok)) →
    run g r as ≠ none →
    ∀ p ∈ trace g r as, (∀ c, p.2 = .pool (.connReady c) → .dterm c ∉ p.1.pool.wq 0) ∧
      (∀ c, p.2 = .getCert c → g.tls = false ∨ (p.1.pool.conn c).cbs ≠ []) := by
  intro as
  induction as with
  | nil => intro r _ _ _ p hp; simp [trace] at hp
  | cons a as ih =>
    intro r h ha hr p hp
    simp only [run] at hr
    rcases e : step g r a with _ | r1
    · simp [e] at hr
    · simp only [trace, e, List.mem_cons] at hp
      rcases hp with rfl | hp
      · refine ⟨fun c hc => ?_, fun c hc => ?_⟩
        · subst hc
          simp only [step] at e
          split at e
          · simp [Pool.step, (h.1 c).2] at e
          · cases e
        · subst hc
          simp only [step] at e
          split at e
          · rename_i hg
            right
            have := hg.2
            simpa [has, h.2 c] using this
          · cases e
      · rw [e] at hr
        exact ih r1 (server_step h (ha a (by simp)) e) (fun a' h' => ha a' (by simp [h'])) hr p hp

end Races
end Salticidae
