import Verif.Lemmas.Pool
namespace Salticidae
namespace Pool

/-- What one connection sees of the pool: its own record, the closures about it in every queue, and the
reports about it. -/
structure V where
  x : Conn
  q : Nat → List Task
  u : List Upd

def view (s : St) (c : Nat) : V :=
  ⟨s.conn c, fun w => (s.wq w).filter (fun t => t.conn = c), s.uq.filter (fun u => u.c = c)⟩

def V.set (v : V) (x : Conn) : V := { v with x := x }
def V.post (v : V) (w : Nat) (t : Task) : V := { v with q := upd v.q w (v.q w ++ [t]) }
def V.pop (v : V) (w : Nat) : V := { v with q := upd v.q w (v.q w).tail }
def V.rep (v : V) (u : Upd) : V := { v with u := v.u ++ [u] }

def vWorkerTerm (v : V) (c : Nat) : V :=
  match v.x.worker with
  | some w => (v.set { v.x with asked := true }).post w (.wterm c)
  | none => v
def vDispTerm (v : V) (c : Nat) : V :=
  match v.x.worker with
  | some _ => vWorkerTerm v c
  | none => (v.set { v.x with asked := true }).post 0 (.dterm c)
def vTeardown (v : V) : V :=
  v.set { v.x with term := true, sock := false, armed := false, sendOn := false, wDown := v.x.wDown + 1 }
def vDel (v : V) (c : Nat) : V :=
  (v.rep ⟨c, false⟩).set { v.x with evConn := false, sock := false, armed := false, dDown := v.x.dDown + 1, closed := v.x.closed + 1 }
def vExec (g : Cfg) (v : V) (c : Nat) (fail : Bool) : Task → V
  | .feed _ =>
    let x1 := { v.x with sock := true, fed := true, stale := v.x.stale || v.x.closed != 0 }
    if g.tls then v.set { x1 with armed := true, recvData := false, handshake := true }
    else (v.set { x1 with recvData := true, handshake := false, sendOn := true, wSetup := v.x.wSetup + 1 }).post 0 (.setup c)
  | .setup _ =>
    let v1 := v.set { v.x with dSetup := v.x.dSetup + 1 }
    if fail then vDispTerm v1 c else v1.rep ⟨c, true⟩
  | .wterm _ => if v.x.term then v else (vTeardown v).post 0 (.del c)
  | .dterm _ => if v.x.term then v else vDel (vTeardown v) c
  | .userTerm _ => vDispTerm v c
  | .del _ => vDel v c
  | .approve _ r =>
    if v.x.term then v
    else if g.tls then
      if r then v.set { v.x with recvData := true, armed := true } else vWorkerTerm v c
    else v.set { v.x with armed := true }

theorem view_set (s : St) (c : Nat) (x : Conn) : view (setConn s c x) c = (view s c).set x := by
  simp [view, setConn, V.set]
theorem view_set_ne (s : St) {c d : Nat} (x : Conn) (h : d ≠ c) : view (setConn s c x) d = view s d := by
  simp [view, setConn, upd_ne _ _ h]
theorem view_post (s : St) (w : Nat) (t : Task) : view (post s w t) t.conn = (view s t.conn).post w t := by
  simp only [view, post, V.post]
  congr 1
  funext w'
  by_cases e : w' = w
  · subst e; simp [List.filter_append]
  · simp [upd_ne _ _ e]
theorem view_post_ne (s : St) (w : Nat) {t : Task} {d : Nat} (h : d ≠ t.conn) : view (post s w t) d = view s d := by
  simp only [view, post]
  congr 1
  funext w'
  by_cases e : w' = w
  · subst e; simp [List.filter_append]; exact fun h' => h h'.symm
  · simp [upd_ne _ _ e]
theorem view_pop {s : St} {w : Nat} {t : Task} {ts : List Task} (h : s.wq w = t :: ts) :
    view { s with wq := upd s.wq w ts } t.conn = (view s t.conn).pop w ∧ ∃ ts', (view s t.conn).q w = t :: ts' := by
  refine ⟨?_, ts.filter (fun t' => t'.conn = t.conn), by simp [view, h]⟩
  simp only [view, V.pop]
  congr 1
  funext w'
  by_cases e : w' = w
  · subst e; simp [h]
  · simp [upd_ne _ _ e]
theorem view_pop_ne {s : St} {w : Nat} {t : Task} {ts : List Task} (h : s.wq w = t :: ts) {d : Nat} (hd : d ≠ t.conn) :
    view { s with wq := upd s.wq w ts } d = view s d := by
  simp only [view]
  congr 1
  funext w'
  by_cases e : w' = w
  · subst e; simp [h, List.filter_cons]; exact fun h' => absurd h'.symm hd
  · simp [upd_ne _ _ e]

theorem view_workerTerm {s : St} {c : Nat} (hw : (s.conn c).worker ≠ none) :
    view (workerTerminate s c) c = vWorkerTerm (view s c) c := by
  unfold workerTerminate vWorkerTerm
  have : (view s c).x = s.conn c := rfl
  rw [this]
  rcases e : (s.conn c).worker with _ | w
  · exact absurd e hw
  · have := view_post (setConn s c { s.conn c with asked := true }) w (.wterm c)
    simp only [Task.conn] at this
    simp only [e] at this ⊢
    rw [this, view_set]
theorem view_workerTerm_ne (s : St) {c d : Nat} (h : d ≠ c) : view (workerTerminate s c) d = view s d := by
  unfold workerTerminate
  rcases e : (s.conn c).worker with _ | w
  · rfl
  · simp only; rw [view_post_ne _ _ (by exact h), view_set_ne _ _ h]
theorem view_dispTerm (s : St) (c : Nat) : view (dispTerminate s c) c = vDispTerm (view s c) c := by
  unfold dispTerminate vDispTerm
  have : (view s c).x = s.conn c := rfl
  rw [this]
  rcases e : (s.conn c).worker with _ | w
  · have := view_post (setConn s c { s.conn c with asked := true }) 0 (.dterm c)
    simp only [Task.conn] at this
    simp only [e] at this ⊢
    rw [this, view_set]
  · simp only; exact view_workerTerm (by rw [e]; simp)
theorem view_dispTerm_ne (s : St) {c d : Nat} (h : d ≠ c) : view (dispTerminate s c) d = view s d := by
  unfold dispTerminate
  rcases e : (s.conn c).worker with _ | w
  · simp only; rw [view_post_ne _ _ (by exact h), view_set_ne _ _ h]
  · exact view_workerTerm_ne s h
theorem view_teardown (s : St) (c : Nat) : view (workerTeardown s c) c = vTeardown (view s c) := by
  simp [view, workerTeardown, setConn, vTeardown, V.set]
theorem view_teardown_ne (s : St) {c d : Nat} (h : d ≠ c) : view (workerTeardown s c) d = view s d := by
  simp [view, workerTeardown, setConn, upd_ne _ _ h]
theorem view_del (s : St) (c : Nat) : view (delConn s c) c = vDel (view s c) c := by
  simp [view, delConn, releaseConn, setConn, vDel, V.set, V.rep]
theorem view_del_ne (s : St) {c d : Nat} (h : d ≠ c) : view (delConn s c) d = view s d := by
  simp [view, delConn, releaseConn, setConn, upd_ne _ _ h]
  intro h'; exact absurd h'.symm h

theorem view_exec {g : Cfg} {s : St} {w : Nat} {fail : Bool} {t : Task}
    (hw : t.needsW = true → (s.conn t.conn).worker ≠ none) :
    view (execTask g s w fail t) t.conn = vExec g (view s t.conn) t.conn fail t := by
  cases t with
  | feed c =>
    simp only [execTask, feed, vExec, Task.conn]
    split
    · rw [view_set]; rfl
    · exact (view_post _ 0 (.setup c)).trans (by simp only [Task.conn]; rw [view_set]; rfl)
  | setup c =>
    simp only [execTask, vExec, Task.conn]
    split
    · rw [view_dispTerm, view_set]; rfl
    · simp [view, setConn, V.set, V.rep]
  | wterm c =>
    show view (if (s.conn c).term = true then s else post (workerTeardown s c) 0 (.del c)) c =
      if (s.conn c).term = true then view s c else (vTeardown (view s c)).post 0 (.del c)
    split
    · rfl
    · exact (view_post _ 0 (.del c)).trans (by simp only [Task.conn]; rw [view_teardown])
  | dterm c =>
    show view (if (s.conn c).term = true then s else delConn (workerTeardown s c) c) c =
      if (s.conn c).term = true then view s c else vDel (vTeardown (view s c)) c
    split
    · rfl
    · rw [view_del, view_teardown]
  | userTerm c => exact view_dispTerm s c
  | del c => exact view_del s c
  | approve c r =>
    show view (if (s.conn c).term = true then s else if g.tls = true then
        if r = true then setConn s c { s.conn c with recvData := true, armed := true } else workerTerminate s c
        else setConn s c { s.conn c with armed := true }) c =
      if (s.conn c).term = true then view s c else if g.tls = true then
        if r = true then (view s c).set { s.conn c with recvData := true, armed := true } else vWorkerTerm (view s c) c
        else (view s c).set { s.conn c with armed := true }
    split
    · rfl
    · split
      · split
        · exact view_set _ _ _
        · exact view_workerTerm (hw rfl)
      · exact view_set _ _ _
theorem view_exec_ne {g : Cfg} {s : St} {w : Nat} {fail : Bool} {t : Task} {d : Nat} (hd : d ≠ t.conn) :
    view (execTask g s w fail t) d = view s d := by
  cases t with
  | feed c =>
    simp only [Task.conn] at hd
    simp only [execTask, feed]
    split
    · rw [view_set_ne _ _ hd]; rfl
    · rw [view_post_ne _ _ (by exact hd), view_set_ne _ _ hd]; rfl
  | setup c =>
    simp only [Task.conn] at hd
    simp only [execTask]
    split
    · rw [view_dispTerm_ne _ hd, view_set_ne _ _ hd]
    · simp [view, setConn, upd_ne _ _ hd]; exact fun h' => absurd h'.symm hd
  | wterm c =>
    simp only [Task.conn] at hd
    simp only [execTask]
    split
    · rfl
    · rw [view_post_ne _ _ (by exact hd), view_teardown_ne _ hd]
  | dterm c =>
    simp only [Task.conn] at hd
    simp only [execTask]
    split
    · rfl
    · rw [view_del_ne _ hd, view_teardown_ne _ hd]
  | userTerm c => exact view_dispTerm_ne s hd
  | del c => exact view_del_ne s hd
  | approve c r =>
    simp only [Task.conn] at hd
    simp only [execTask]
    split
    · rfl
    · split
      · split
        · exact view_set_ne _ _ hd
        · exact view_workerTerm_ne _ hd
      · exact view_set_ne _ _ hd

/-- How one step of the pool looks to connection `c`. -/
inductive VStep (g : Cfg) (c : Nat) (v : V) : V → Act → Prop where
  | exec (w : Nat) (fail : Bool) (t : Task) (ts : List Task) : t.conn = c → v.q w = t :: ts →
      (t.needsW = true → v.x.worker ≠ none) → VStep g c v (vExec g (v.pop w) c fail t) (.exec w fail)
  | connReady (w : Nat) : v.x.evConn = true →
      VStep g c v ((v.set { v.x with evConn := false, worker := some w }).post w (.feed c)) (.connReady c)
  | connFail (timeout : Bool) : v.x.evConn = true →
      VStep g c v (vDispTerm (v.set { v.x with evConn := !timeout }) c) (.connFail c timeout)
  | terminate : VStep g c v ((v.set { v.x with asked := true }).post 0 (.userTerm c)) (.terminate c)
  | userUp (r : Bool) (w : Nat) (us : List Upd) : v.u = ⟨c, true⟩ :: us → v.x.worker = some w →
      VStep g c v (({ v with u := us }.set { v.x with cbs := v.x.cbs ++ [true], verdict := some r }).post w (.approve c r)) (.user r)
  | userDown (r : Bool) (us : List Upd) : v.u = ⟨c, false⟩ :: us →
      VStep g c v ({ v with u := us }.set { v.x with cbs := v.x.cbs ++ [false] }) (.user r)
  | readable : v.x.sock = true → v.x.armed = true →
      VStep g c v (if v.x.recvData then v.set { v.x with reads := v.x.reads + 1 } else v) (.readable c)
  | writable : v.x.sock = true → v.x.armed = true → VStep g c v (v.set { v.x with readySend := true }) (.writable c)
  | hsDone : v.x.sock = true → v.x.armed = true → v.x.handshake = true →
      VStep g c v ((v.set { v.x with handshake := false, armed := false, sendOn := true, wSetup := v.x.wSetup + 1 }).post 0 (.setup c)) (.hsDone c)
  | ioError : v.x.sock = true → v.x.armed = true → v.x.worker ≠ none → VStep g c v (vWorkerTerm v c) (.ioError c)
  | sendBuf : v.x.sock = true → v.x.sendOn = true → v.x.readySend = true →
      VStep g c v (v.set { v.x with armed := true }) (.sendBuf c)

/-- A connection just created. -/
inductive VNew (g : Cfg) (c : Nat) : V → Prop where
  | accept (fd w : Nat) : VNew g c ⟨{ newConn fd false with worker := some w }, upd (fun _ => []) w [.feed c], []⟩
  | connect (fd : Nat) : VNew g c ⟨{ newConn fd true with evConn := true }, fun _ => [], []⟩
  | refused (fd : Nat) : VNew g c ⟨{ newConn fd true with evConn := false, asked := true }, upd (fun _ => []) 0 [.dterm c], []⟩

theorem view_new {s : St} (hi : Inv none s) : (view s s.n).q = (fun _ => []) ∧ (view s s.n).u = [] := by
  constructor
  · funext w
    simp only [view, List.filter_eq_nil_iff, decide_eq_true_eq]
    intro t ht; have := hi.valid w t ht; omega
  · simp only [view, List.filter_eq_nil_iff, decide_eq_true_eq]
    intro u hu; have := hi.uvalid u hu; omega

theorem dispTerminate_n (s : St) (c : Nat) : (dispTerminate s c).n = s.n := by
  unfold dispTerminate workerTerminate; split <;> (try split) <;> rfl

theorem step_view {g : Cfg} {s s' : St} {a : Act} (hi : Inv none s) (h : step g s a = some s') :
    s.n ≤ s'.n ∧ (∀ c, c < s.n → view s' c = view s c ∨ VStep g c (view s c) (view s' c) a) ∧
    (∀ c, s.n ≤ c → c < s'.n → VNew g c (view s' c)) := by
  have hself : ∀ (c : Nat), c < s.n → ∀ s1 : St, s1.n = s.n → (∀ d, d ≠ c → view s1 d = view s d) →
      (view s1 c = view s c ∨ VStep g c (view s c) (view s1 c) a) →
      s.n ≤ s1.n ∧ (∀ c, c < s.n → view s1 c = view s c ∨ VStep g c (view s c) (view s1 c) a) ∧
      (∀ c, s.n ≤ c → c < s1.n → VNew g c (view s1 c)) := by
    intro c hc s1 hn hd hs
    refine ⟨by omega, fun d _ => ?_, fun d h1 h2 => by omega⟩
    by_cases e : d = c
    · subst e; exact hs
    · exact .inl (hd d e)
  cases a with
  | accept fd =>
    simp only [step] at h
    split at h <;> cases h
    obtain ⟨hq, hu⟩ := view_new hi
    refine ⟨Nat.le_succ _, fun c hc => .inl ?_, fun c h1 h2 => ?_⟩
    · have hne : c ≠ s.n := by omega
      rw [view_post_ne _ _ (by exact hne)]
      simp [view, upd_ne _ _ hne]
    · have : c = s.n := by simp only [post] at h2; omega
      subst this
      have := view_post { s with
        n := s.n + 1, pool := s.pool ++ [(fd, s.n)]
        conn := upd s.conn s.n { newConn fd false with worker := some (selectWorker g.nw (loads s)) } } (selectWorker g.nw (loads s)) (.feed s.n)
      simp only [Task.conn] at this
      rw [this]
      have e : view { s with
        n := s.n + 1, pool := s.pool ++ [(fd, s.n)]
        conn := upd s.conn s.n { newConn fd false with worker := some (selectWorker g.nw (loads s)) } } s.n =
        ⟨{ newConn fd false with worker := some (selectWorker g.nw (loads s)) }, fun _ => [], []⟩ := by
        rw [← hq, ← hu]; simp [view]
      rw [e]
      exact VNew.accept fd _
  | acceptFail =>
    simp only [step] at h
    split at h <;> cases h
    exact ⟨Nat.le_refl _, fun c _ => .inl rfl, fun c h1 h2 => by simp only at h2; omega⟩
  | listen =>
    simp only [step] at h
    cases h
    exact ⟨Nat.le_refl _, fun c _ => .inl rfl, fun c h1 h2 => by simp only at h2; omega⟩
  | connect fd ok =>
    simp only [step] at h
    split at h <;> cases h
    obtain ⟨hq, hu⟩ := view_new hi
    have e : view { s with
        n := s.n + 1, pool := s.pool ++ [(fd, s.n)]
        conn := upd s.conn s.n { newConn fd true with evConn := ok } } s.n =
        ⟨{ newConn fd true with evConn := ok }, fun _ => [], []⟩ := by
      rw [← hq, ← hu]; simp [view]
    have e2 : ∀ d, d ≠ s.n → view { s with
        n := s.n + 1, pool := s.pool ++ [(fd, s.n)]
        conn := upd s.conn s.n { newConn fd true with evConn := ok } } d = view s d := by
      intro d hd; simp [view, upd_ne _ _ hd]
    cases ok with
    | true =>
      refine ⟨Nat.le_succ _, fun c hc => .inl (e2 c (by omega)), fun c h1 h2 => ?_⟩
      have : c = s.n := by simp at h2; omega
      subst this
      simp only [if_true]; rw [e]; exact VNew.connect fd
    | false =>
      simp only [Bool.false_eq_true, if_false]
      rw [dispTerminate_n]
      refine ⟨Nat.le_succ _, fun c hc => .inl ?_, fun c h1 h2 => ?_⟩
      · rw [view_dispTerm_ne _ (by omega)]; exact e2 c (by omega)
      · have : c = s.n := by simp only at h2; omega
        subst this
        rw [view_dispTerm, e]
        exact VNew.refused fd
  | connReady c =>
    simp only [step] at h
    split at h <;> cases h
    rename_i hc
    refine hself c hc.1 _ rfl (fun d hd => ?_) (.inr ?_)
    · rw [view_post_ne _ _ (by exact hd), view_set_ne _ _ hd]
    · have := view_post (setConn s c { s.conn c with evConn := false, worker := some (selectWorker g.nw (loads s)) }) (selectWorker g.nw (loads s)) (.feed c)
      simp only [Task.conn] at this
      rw [this, view_set]
      exact VStep.connReady _ hc.2
  | connFail c timeout =>
    simp only [step] at h
    split at h <;> cases h
    rename_i hc
    refine hself c hc.1 _ (by unfold dispTerminate workerTerminate; split <;> (try split) <;> rfl) (fun d hd => ?_) (.inr ?_)
    · rw [view_dispTerm_ne _ hd, view_set_ne _ _ hd]
    · rw [view_dispTerm, view_set]
      exact VStep.connFail timeout hc.2
  | terminate c =>
    simp only [step] at h
    split at h <;> cases h
    rename_i hc
    refine hself c hc _ rfl (fun d hd => ?_) (.inr ?_)
    · rw [view_post_ne _ _ (by exact hd), view_set_ne _ _ hd]
    · have := view_post (setConn s c { s.conn c with asked := true }) 0 (.userTerm c)
      simp only [Task.conn] at this
      rw [this, view_set]
      exact VStep.terminate
  | exec w fail =>
    simp only [step] at h
    rcases hq : s.wq w with _ | ⟨t, ts⟩
    · rw [hq] at h; cases h
    · rw [hq] at h; cases h
      have hc : t.conn < s.n := hi.valid w t (by rw [hq]; simp)
      have hn : (execTask g { s with wq := upd s.wq w ts } w fail t).n = s.n := by
        cases t <;> simp only [execTask, feed, dispTerminate, workerTerminate, delConn, releaseConn, workerTeardown, post, setConn] <;>
          (repeat' split) <;> rfl
      have hw : t.needsW = true → (s.conn t.conn).worker ≠ none := fun hn =>
        (hi.conn _ hc).needW (.inl ⟨w, t, by rw [hq]; simp, hn, rfl⟩)
      refine hself t.conn hc _ hn (fun d hd => ?_) (.inr ?_)
      · rw [view_exec_ne hd, view_pop_ne hq hd]
      · obtain ⟨h1, ts', h2⟩ := view_pop hq
        rw [view_exec (by simpa using hw), h1]
        exact VStep.exec w fail t ts' rfl h2 hw
  | user r =>
    simp only [step] at h
    rcases hq : s.uq with _ | ⟨⟨c, connected⟩, us⟩
    · rw [hq] at h; cases h
    · rw [hq] at h
      simp only [Option.some.injEq] at h
      have hc : c < s.n := hi.uvalid ⟨c, connected⟩ (by rw [hq]; simp)
      have hvu : (view s c).u = ⟨c, connected⟩ :: us.filter (fun u => u.c = c) := by simp [view, hq]
      have hdu : ∀ d, d ≠ c → s.uq.filter (fun u => u.c = d) = us.filter (fun u => u.c = d) := by
        intro d hd; simp [hq, List.filter_cons]; intro h'; exact absurd h'.symm hd
      cases connected with
      | false =>
        simp only [Bool.false_eq_true, if_false] at h
        subst h
        refine hself c hc _ rfl (fun d hd => ?_) (.inr ?_)
        · rw [view_set_ne _ _ hd]; simp [view, hdu d hd]
        · rw [view_set]
          exact VStep.userDown r _ hvu
      | true =>
        simp only [if_true] at h
        have hw : (s.conn c).worker ≠ none := (hi.conn c hc).needW (.inr (.inr (.inl (by rw [hq]; simp))))
        rcases e : (s.conn c).worker with _ | w
        · exact absurd e hw
        · rw [e] at h
          simp only at h
          subst h
          refine hself c hc _ rfl (fun d hd => ?_) (.inr ?_)
          · rw [view_post_ne _ _ (by exact hd), view_set_ne _ _ hd]; simp [view, hdu d hd]
          · have := view_post (setConn { s with uq := us } c { s.conn c with
              cbs := (s.conn c).cbs ++ [true], verdict := some r }) w (.approve c r)
            simp only [Task.conn] at this
            simp only [e] at this
            rw [this, view_set]
            have := VStep.userUp (g := g) r w _ hvu e
            have e2 : (view s c).x.worker = some w := e
            simp only [e2] at this
            exact this
  | readable c =>
    simp only [step] at h
    split at h <;> cases h
    rename_i hc
    refine hself c hc.1 _ (by split <;> rfl) (fun d hd => ?_) (.inr ?_)
    · split
      · rw [view_set_ne _ _ hd]
      · rfl
    · have := VStep.readable (g := g) (c := c) (v := view s c) hc.2.1 hc.2.2
      have e2 : (view s c).x = s.conn c := rfl
      rw [e2] at this
      split
      · rename_i hr; simp only [hr, if_true] at this; rw [view_set]; rw [← hr] at this; exact this
      · rename_i hr; simp only [hr, if_false] at this; exact this
  | writable c =>
    simp only [step] at h
    split at h <;> cases h
    rename_i hc
    refine hself c hc.1 _ rfl (fun d hd => ?_) (.inr ?_)
    · rw [view_set_ne _ _ hd]
    · rw [view_set]; exact VStep.writable hc.2.1 hc.2.2
  | hsDone c =>
    simp only [step] at h
    split at h <;> cases h
    rename_i hc
    refine hself c hc.1 _ rfl (fun d hd => ?_) (.inr ?_)
    · rw [view_post_ne _ _ (by exact hd), view_set_ne _ _ hd]
    · have := view_post (setConn s c { s.conn c with
        handshake := false, armed := false, sendOn := true, wSetup := (s.conn c).wSetup + 1 }) 0 (.setup c)
      simp only [Task.conn] at this
      rw [this, view_set]
      exact VStep.hsDone hc.2.1 hc.2.2.1 hc.2.2.2
  | ioError c =>
    simp only [step] at h
    split at h <;> cases h
    rename_i hc
    have hw := (hi.conn c hc.1).needW (.inr (.inr (.inr hc.2.1)))
    refine hself c hc.1 _ (by unfold workerTerminate; split <;> rfl) (fun d hd => ?_) (.inr ?_)
    · rw [view_workerTerm_ne _ hd]
    · rw [view_workerTerm hw]; exact VStep.ioError hc.2.1 hc.2.2 hw
  | sendBuf c =>
    simp only [step] at h
    split at h <;> cases h
    rename_i hc
    refine hself c hc.1 _ rfl (fun d hd => ?_) (.inr ?_)
    · rw [view_set_ne _ _ hd]
    · rw [view_set]; exact VStep.sendBuf hc.2.1 hc.2.2.1 hc.2.2.2

end Pool
end Salticidae
