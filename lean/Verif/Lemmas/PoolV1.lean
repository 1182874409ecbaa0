import Verif.Lemmas.PoolView
namespace Salticidae
namespace Pool

theorem mem_post {v : V} {w w' : Nat} {t t' : Task} : t' ∈ (v.post w t).q w' ↔ t' ∈ v.q w' ∨ (w' = w ∧ t' = t) := by
  simp only [V.post]
  by_cases e : w' = w
  · subst e; simp
  · simp [upd_ne _ _ e, e]

theorem mem_pop {v : V} {w w' : Nat} {t' : Task} (h : t' ∈ (v.pop w).q w') : t' ∈ v.q w' := by
  simp only [V.pop] at h
  by_cases e : w' = w
  · subst e; rw [upd_same] at h; exact List.mem_of_mem_tail h
  · rwa [upd_ne _ _ e] at h

theorem mem_of_pop {v : V} {w w' : Nat} {t t' : Task} {ts : List Task} (hq : v.q w = t :: ts) (h : t' ∈ v.q w') :
    t' ∈ (v.pop w).q w' ∨ (w' = w ∧ t' = t) := by
  simp only [V.pop]
  by_cases e : w' = w
  · subst e; rw [upd_same, hq]; rw [hq] at h; rcases List.mem_cons.1 h with h | h
    · exact .inr ⟨rfl, h⟩
    · exact .inl (by simpa using h)
  · rw [upd_ne _ _ e]; exact .inl h

theorem count_post {v : V} {w w' : Nat} {t t' : Task} :
    ((v.post w t).q w').count t' = (v.q w').count t' + if w' = w ∧ t = t' then 1 else 0 := by
  simp only [V.post]
  by_cases e : w' = w
  · subst e; by_cases e2 : t = t' <;> simp [List.count_append, e2]
  · simp [upd_ne _ _ e, e]

theorem count_pop {v : V} {w w' : Nat} {t t' : Task} {ts : List Task} (hq : v.q w = t :: ts) :
    ((v.pop w).q w').count t' + (if w' = w ∧ t = t' then 1 else 0) = (v.q w').count t' := by
  simp only [V.pop]
  by_cases e : w' = w
  · subst e; rw [upd_same, hq]; by_cases e2 : t = t' <;> simp [List.count_cons, e2]
  · simp [upd_ne _ _ e, e]

/-- The number of `connected` reports a connection can still cause, plus those it has caused. -/
def tok (c : Nat) (v : V) : Nat :=
  (match v.x.worker with
    | none => 1
    | some w => (v.q w).count (.feed c)) + v.x.handshake.toNat + (v.q 0).count (.setup c) + v.u.count ⟨c, true⟩ +
  v.x.verdict.isSome.toNat

theorem tok_some {c w : Nat} {v : V} (h : v.x.worker = some w) : tok c v = (v.q w).count (.feed c) + v.x.handshake.toNat +
    (v.q 0).count (.setup c) + v.u.count ⟨c, true⟩ + v.x.verdict.isSome.toNat := by simp [tok, h]
theorem tok_none {c : Nat} {v : V} (h : v.x.worker = none) : tok c v = 1 + v.x.handshake.toNat +
    (v.q 0).count (.setup c) + v.u.count ⟨c, true⟩ + v.x.verdict.isSome.toNat := by simp [tok, h]

structure V1 (g : Cfg) (c : Nat) (v : V) : Prop where
  feedW : ∀ w, .feed c ∈ v.q w → v.x.worker = some w
  wtW : ∀ w, .wterm c ∈ v.q w → v.x.worker = some w
  set0 : ∀ w, .setup c ∈ v.q w → w = 0
  ev : v.x.evConn = true → v.x.worker = none
  tok : tok c v ≤ 1
  appr : ∀ w r, .approve c r ∈ v.q w → v.x.verdict = some r
  tlsR : g.tls = true → (v.x.recvData = true ∨ 0 < v.x.reads) → v.x.verdict = some true
  ntls : g.tls = false → v.x.handshake = false ∧ ((v.x.armed = true ∨ v.x.readySend = true ∨ 0 < v.x.reads) → v.x.verdict ≠ none)
  rej : g.tls = true → v.x.verdict = some false → v.x.asked = true ∨ v.x.term = true ∨ ∃ w, .approve c false ∈ v.q w

theorem v1_new {g : Cfg} {c : Nat} {v : V} (h : VNew g c v) : V1 g c v := by
  cases h with
  | accept fd w =>
    have hm : ∀ w' t, t ∈ (upd (fun _ => []) w [Task.feed c]) w' → w' = w ∧ t = .feed c := by
      intro w' t ht
      by_cases e : w' = w
      · subst e; simpa using ht
      · rw [upd_ne _ _ e] at ht; simp at ht
    have hs : List.count (Task.setup c) (upd (fun _ => []) w [Task.feed c] 0) = 0 :=
      List.count_eq_zero.2 (fun h => by simpa using (hm _ _ h).2)
    refine ⟨fun w' h => ?_, fun w' h => by simpa using (hm _ _ h).2, fun w' h => by simpa using (hm _ _ h).2, by simp [newConn], ?_,
      fun w' r h => by simpa using (hm _ _ h).2, by simp [newConn], by simp [newConn], by simp [newConn]⟩
    · simp [(hm _ _ h).1]
    · simp [tok, newConn, hs]
  | connect fd => constructor <;> simp [newConn, tok]
  | refused fd =>
    have hm : ∀ w' t, t ∈ (upd (fun _ => []) 0 [Task.dterm c]) w' → t = .dterm c := by
      intro w' t ht
      by_cases e : w' = 0
      · subst e; simpa using ht
      · rw [upd_ne _ _ e] at ht; simp at ht
    refine ⟨fun w' h => by simpa using hm _ _ h, fun w' h => by simpa using hm _ _ h, fun w' h => by simpa using hm _ _ h,
      by simp [newConn], ?_, fun w' r h => by simpa using hm _ _ h, by simp [newConn], by simp [newConn], by simp [newConn]⟩
    simp [tok, newConn]

/-- Posting a closure that is neither `feed` nor `setup`. -/
theorem v1_post {g : Cfg} {c w : Nat} {v : V} {t : Task} (h : V1 g c v) (h1 : ∀ c, t ≠ .feed c) (h2 : ∀ c, t ≠ .setup c)
    (h3 : t = .wterm c → v.x.worker = some w) (h4 : ∀ r, t = .approve c r → v.x.verdict = some r) : V1 g c (v.post w t) := by
  obtain ⟨a1, a2, a3, a4, a5, a6, a7, a8, a9⟩ := h
  refine ⟨fun w' h => ?_, fun w' h => ?_, fun w' h => ?_, a4, ?_, fun w' r h => ?_, a7, a8, fun ht hv => ?_⟩
  · rcases mem_post.1 h with h | ⟨_, h⟩
    · exact a1 w' h
    · exact absurd h.symm (h1 c)
  · rcases mem_post.1 h with h | ⟨e, h⟩
    · exact a2 w' h
    · rw [e]; exact h3 h.symm
  · rcases mem_post.1 h with h | ⟨_, h⟩
    · exact a3 w' h
    · exact absurd h.symm (h2 c)
  · unfold tok at a5 ⊢
    have e1 : ((v.post w t).q 0).count (.setup c) = (v.q 0).count (.setup c) := by
      rw [count_post]; simp [h2 c]
    have e2 : ∀ w', ((v.post w t).q w').count (.feed c) = (v.q w').count (.feed c) := by
      intro w'; rw [count_post]; simp [h1 c]
    rw [e1]; simp only [e2]; exact a5
  · rcases mem_post.1 h with h | ⟨_, h⟩
    · exact a6 w' r h
    · exact h4 r h.symm
  · rcases a9 ht hv with h | h | ⟨w', h⟩
    · exact .inl h
    · exact .inr (.inl h)
    · exact .inr (.inr ⟨w', mem_post.2 (.inl h)⟩)

/-- Changing fields that do not matter. -/
theorem v1_set {g : Cfg} {c : Nat} {v : V} {x : Conn} (h : V1 g c v) (e1 : x.worker = v.x.worker)
    (e2 : x.evConn = true → v.x.evConn = true) (e3 : x.handshake = v.x.handshake) (e4 : x.verdict = v.x.verdict)
    (e5 : g.tls = true → (x.recvData = true ∨ 0 < x.reads) → v.x.verdict = some true)
    (e6 : g.tls = false → (x.armed = true ∨ x.readySend = true ∨ 0 < x.reads) → v.x.verdict ≠ none)
    (e7 : v.x.asked = true → x.asked = true) (e8 : v.x.term = true → x.term = true) : V1 g c (v.set x) := by
  obtain ⟨a1, a2, a3, a4, a5, a6, a7, a8, a9⟩ := h
  refine ⟨?_, ?_, a3, ?_, ?_, ?_, ?_, ?_, ?_⟩ <;> simp only [V.set, tok, e1, e3, e4]
  · exact a1
  · exact a2
  · exact fun h => a4 (e2 h)
  · exact a5
  · exact a6
  · exact e5
  · exact fun ht => ⟨(a8 ht).1, e6 ht⟩
  · intro ht hv
    rcases a9 ht hv with h | h | h
    · exact .inl (e7 h)
    · exact .inr (.inl (e8 h))
    · exact .inr (.inr h)

theorem v1_wt {g : Cfg} {c : Nat} {v : V} (h : V1 g c v) : V1 g c (vWorkerTerm v c) := by
  unfold vWorkerTerm
  rcases e : v.x.worker with _ | w
  · exact h
  · simp only
    have h1 : V1 g c (v.set { v.x with asked := true }) :=
      v1_set h rfl (fun h => h) rfl rfl (fun a b => h.tlsR a b) (fun a b => (h.ntls a).2 b) (fun _ => rfl) (fun h => h)
    exact v1_post h1 (by simp) (by simp) (fun _ => by simp [V.set, e]) (by simp)

theorem v1_dt {g : Cfg} {c : Nat} {v : V} (h : V1 g c v) : V1 g c (vDispTerm v c) := by
  unfold vDispTerm
  rcases e : v.x.worker with _ | w
  · simp only
    have h1 : V1 g c (v.set { v.x with asked := true }) :=
      v1_set h rfl (fun h => h) rfl rfl (fun a b => h.tlsR a b) (fun a b => (h.ntls a).2 b) (fun _ => rfl) (fun h => h)
    exact v1_post h1 (by simp) (by simp) (by simp) (by simp)
  · exact v1_wt h

/-- Taking a closure that is not an answer `false`, or whose effect is already there. -/
theorem v1_pop {g : Cfg} {c w : Nat} {v : V} {t : Task} {ts : List Task} (h : V1 g c v) (hq : v.q w = t :: ts)
    (h1 : t = .approve c false → g.tls = true → v.x.asked = true ∨ v.x.term = true) : V1 g c (v.pop w) := by
  obtain ⟨a1, a2, a3, a4, a5, a6, a7, a8, a9⟩ := h
  refine ⟨fun w' h => a1 w' (mem_pop h), fun w' h => a2 w' (mem_pop h), fun w' h => a3 w' (mem_pop h), a4, ?_,
    fun w' r h => a6 w' r (mem_pop h), a7, a8, fun ht hv => ?_⟩
  · unfold tok at a5 ⊢
    have e1 := count_pop (w' := 0) (t' := .setup c) hq
    rcases e : v.x.worker with _ | w2
    · rw [e] at a5
      have : (v.pop w).x.worker = none := e
      simp only [this] at a5 ⊢
      simp only [V.pop] at e1 ⊢
      omega
    · rw [e] at a5
      have e2 := count_pop (w' := w2) (t' := .feed c) hq
      have : (v.pop w).x.worker = some w2 := e
      simp only [this] at a5 ⊢
      simp only [V.pop] at e1 e2 ⊢
      omega
  · rcases a9 ht hv with h | h | ⟨w', h⟩
    · exact .inl h
    · exact .inr (.inl h)
    · rcases mem_of_pop hq h with h | ⟨_, h⟩
      · exact .inr (.inr ⟨w', h⟩)
      · rcases h1 h.symm ht with h | h
        · exact .inl h
        · exact .inr (.inl h)

theorem v1_del {g : Cfg} {c : Nat} {v : V} (h : V1 g c v) : V1 g c (vDel v c) := by
  have h1 : V1 g c (v.rep ⟨c, false⟩) := by
    obtain ⟨a1, a2, a3, a4, a5, a6, a7, a8, a9⟩ := h
    refine ⟨a1, a2, a3, a4, ?_, a6, a7, a8, a9⟩
    unfold tok at a5 ⊢
    simp only [V.rep, List.count_append] at a5 ⊢
    simp; omega
  exact v1_set h1 rfl (by simp) rfl rfl (fun a b => h.tlsR a b) (fun a b => (h.ntls a).2 (by simp at b; exact .inr b)) (fun h => h) (fun h => h)

theorem v1_td {g : Cfg} {c : Nat} {v : V} (h : V1 g c v) : V1 g c (vTeardown v) :=
  v1_set h rfl (fun h => h) rfl rfl (fun a b => h.tlsR a b) (fun a b => (h.ntls a).2 (by simp at b; exact .inr b)) (fun h => h) (fun _ => rfl)

theorem v1_exec {g : Cfg} {c w : Nat} {fail : Bool} {v : V} {t : Task} {ts : List Task} (h : V1 g c v) (hc : t.conn = c)
    (hq : v.q w = t :: ts) (hw : t.needsW = true → v.x.worker ≠ none) : V1 g c (vExec g (v.pop w) c fail t) := by
  have hin : t ∈ v.q w := by rw [hq]; simp
  cases t with
  | feed c' =>
    simp only [Task.conn] at hc; subst hc
    have hp := v1_pop h hq (by simp)
    have hw' := h.feedW w hin
    have ht := h.tok
    obtain ⟨a1, a2, a3, a4, a5, a6, a7, a8, a9⟩ := hp
    have e2 := count_pop (w' := w) (t' := .feed c') hq
    have e1 := count_pop (w' := 0) (t' := .setup c') hq
    simp only [and_self, if_true] at e2
    unfold tok at ht
    rw [hw'] at ht
    simp only at ht
    have hv : v.x.verdict = none := by
      cases e : v.x.verdict with
      | none => rfl
      | some r => rw [e] at ht; simp at ht; omega
    simp only [vExec]
    by_cases htls : g.tls = true
    · simp only [htls, if_true]
      refine ⟨a1, a2, a3, a4, ?_, a6, ?_, by simp [htls], a9⟩
      · unfold tok
        simp only [V.set, V.pop, hw'] at e1 e2 ⊢
        simp at e1 e2 ⊢
        omega
      · intro _ hr; simp [V.set, V.pop] at hr; exact a7 htls (.inr hr)
    · rw [if_neg htls]
      have hff : g.tls = false := by simpa using htls
      refine ⟨fun w' hm => ?_, fun w' hm => ?_, fun w' hm => ?_, a4, ?_, fun w' r hm => ?_, by simp [htls], fun _ => ⟨rfl, (a8 hff).2⟩, by simp [htls]⟩
      · rcases mem_post.1 hm with hm | ⟨_, hm⟩
        · exact a1 w' hm
        · simp at hm
      · rcases mem_post.1 hm with hm | ⟨_, hm⟩
        · exact a2 w' hm
        · simp at hm
      · rcases mem_post.1 hm with hm | ⟨hm, _⟩
        · exact a3 w' hm
        · exact hm
      · refine Nat.le_trans (Nat.le_of_eq (tok_some (w := w) (by exact hw'))) ?_
        simp only [count_post]
        simp only [V.set, V.post, V.pop] at e1 e2 ⊢
        simp at e1 e2 ⊢
        omega
      · rcases mem_post.1 hm with hm | ⟨_, hm⟩
        · exact a6 w' r hm
        · simp at hm
  | setup c' =>
    simp only [Task.conn] at hc; subst hc
    have hp := v1_pop h hq (by simp)
    have h0 := h.set0 w hin
    subst h0
    have hs : V1 g c' ((v.pop 0).set { (v.pop 0).x with dSetup := (v.pop 0).x.dSetup + 1 }) :=
      v1_set hp rfl (fun h => h) rfl rfl (fun a b => hp.tlsR a b) (fun a b => (hp.ntls a).2 b) (fun h => h) (fun h => h)
    simp only [vExec]
    by_cases hf : fail = true
    · simp only [hf, if_true]; exact v1_dt hs
    · simp only [hf]
      obtain ⟨a1, a2, a3, a4, a5, a6, a7, a8, a9⟩ := hs
      refine ⟨a1, a2, a3, a4, ?_, a6, a7, a8, a9⟩
      have ht := h.tok
      have e1 := count_pop (w' := 0) (t' := .setup c') hq
      simp only [and_self, if_true] at e1
      unfold tok at ht ⊢
      simp only [V.rep, V.set, V.pop, List.count_append] at e1 ⊢
      rcases e : v.x.worker with _ | w2
      · rw [e] at ht; simp at ht ⊢; omega
      · rw [e] at ht
        have e2 := count_pop (w' := w2) (t' := .feed c') hq
        simp [V.pop] at e1 e2 ht ⊢; omega
  | wterm c' =>
    have hp := v1_pop h hq (by simp)
    simp only [vExec]
    split
    · exact hp
    · exact v1_post (v1_td hp) (by simp) (by simp) (by simp) (by simp)
  | dterm c' =>
    have hp := v1_pop h hq (by simp)
    simp only [vExec]
    split
    · exact hp
    · exact v1_del (v1_td hp)
  | userTerm c' => exact v1_dt (v1_pop h hq (by simp))
  | del c' => exact v1_del (v1_pop h hq (by simp))
  | approve c' r =>
    simp only [Task.conn] at hc; subst hc
    have hv := h.appr w r hin
    simp only [vExec]
    have e0 : (v.pop w).x = v.x := rfl
    by_cases htm : v.x.term = true
    · rw [if_pos (by rw [e0]; exact htm)]
      exact v1_pop h hq (fun _ _ => .inr htm)
    · rw [if_neg (by rw [e0]; exact htm)]
      by_cases htls : g.tls = true
      · rw [if_pos htls]
        cases r with
        | true =>
          simp only [if_true]
          have hp := v1_pop h hq (by simp)
          exact v1_set hp rfl (fun h => h) rfl rfl (fun a b => hv) (by simp [htls]) (fun h => h) (fun h => h)
        | false =>
          simp only [Bool.false_eq_true, if_false]
          -- the request to terminate is recorded first
          have h1 : V1 g c' (vWorkerTerm v c') := v1_wt h
          unfold vWorkerTerm at h1 ⊢
          rw [e0]
          rcases e : v.x.worker with _ | w2
          · exact absurd e (hw rfl)
          · simp only [e] at h1 ⊢
            have hs : V1 g c' (v.set { v.x with asked := true }) :=
              v1_set h rfl (fun h => h) rfl rfl (fun a b => h.tlsR a b) (fun a b => (h.ntls a).2 b) (fun _ => rfl) (fun h => h)
            have hp : V1 g c' ((v.set { v.x with asked := true }).pop w) := v1_pop (v := v.set { v.x with asked := true }) hs hq (fun _ _ => .inl rfl)
            have := v1_post (w := w2) (t := .wterm c') hp (by simp) (by simp) (fun _ => by simp [V.pop, V.set, e]) (by simp)
            simp only [e] at this
            exact this
      · rw [if_neg htls]
        have hff : g.tls = false := by simpa using htls
        have hp := v1_pop h hq (by simp [htls])
        exact v1_set hp rfl (fun h => h) rfl rfl (by simp [htls]) (fun _ _ => by rw [e0, hv]; simp) (fun h => h) (fun h => h)

theorem v1_step {g : Cfg} {c : Nat} {v v' : V} {a : Act} (h : V1 g c v) (hs : VStep g c v v' a) : V1 g c v' := by
  cases hs with
  | exec w fail t ts hc hq hw => exact v1_exec h hc hq hw
  | connReady w hev =>
    have hw := h.ev hev
    obtain ⟨a1, a2, a3, a4, a5, a6, a7, a8, a9⟩ := h
    have hnof : ∀ w, .feed c ∉ v.q w := fun w' hm => by have := a1 w' hm; rw [hw] at this; cases this
    refine ⟨fun w' hm => ?_, fun w' hm => ?_, fun w' hm => ?_, by simp [V.set, V.post], ?_, fun w' r hm => ?_, a7, a8, fun ht hv => ?_⟩
    · rcases mem_post.1 hm with hm | ⟨e, _⟩
      · exact absurd hm (hnof w')
      · rw [e]; rfl
    · rcases mem_post.1 hm with hm | ⟨_, hm⟩
      · have := a2 w' hm; rw [hw] at this; cases this
      · simp at hm
    · rcases mem_post.1 hm with hm | ⟨_, hm⟩
      · exact a3 w' hm
      · simp at hm
    · unfold tok at a5 ⊢
      rw [hw] at a5
      simp only [count_post]
      have := List.count_eq_zero.2 (hnof w)
      simp only [V.set, V.post] at a5 ⊢
      simp [this] at a5 ⊢
      omega
    · rcases mem_post.1 hm with hm | ⟨_, hm⟩
      · exact a6 w' r hm
      · simp at hm
    · rcases a9 ht hv with h | h | ⟨w', h⟩
      · exact .inl h
      · exact .inr (.inl h)
      · exact .inr (.inr ⟨w', mem_post.2 (.inl h)⟩)
  | connFail timeout hev =>
    exact v1_dt (v1_set h rfl (fun _ => hev) rfl rfl (fun a b => h.tlsR a b) (fun a b => (h.ntls a).2 b) (fun h => h) (fun h => h))
  | terminate =>
    refine v1_post (v1_set h rfl (fun h => h) rfl rfl (fun a b => h.tlsR a b) (fun a b => (h.ntls a).2 b) (fun _ => rfl) (fun h => h))
      (by simp) (by simp) (by simp) (by simp)
  | userUp r w us hu hw =>
    have ht := h.tok
    obtain ⟨a1, a2, a3, a4, a5, a6, a7, a8, a9⟩ := h
    unfold tok at ht
    rw [hu, hw] at ht
    simp only [List.count_cons_self] at ht
    have hv : v.x.verdict = none := by
      cases e : v.x.verdict with
      | none => rfl
      | some r => rw [e] at ht; simp at ht
    have hna : ∀ w' r', .approve c r' ∉ v.q w' := fun w' r' hm => by have := a6 w' r' hm; rw [hv] at this; cases this
    have h1 : V1 g c (V.set { v with u := us } { v.x with cbs := v.x.cbs ++ [true], verdict := some r }) → V1 g c
        ((V.set { v with u := us } { v.x with cbs := v.x.cbs ++ [true], verdict := some r }).post w (.approve c r)) := fun h1 =>
      v1_post h1 (by simp) (by simp) (by simp) (by intro r' e; simp at e; subst e; rfl)
    have tokle : tok c ((V.set { v with u := us } { v.x with cbs := v.x.cbs ++ [true], verdict := some r }).post w (.approve c r)) ≤ 1 := by
      refine Nat.le_trans (Nat.le_of_eq (tok_some (w := w) (by exact hw))) ?_
      simp only [count_post]
      simp only [V.set, V.post]
      rw [hv] at ht
      have e1 : (Option.isSome (none : Option Bool)).toNat = 0 := rfl
      have e2 : (Option.isSome (some r)).toNat = 1 := rfl
      have e3 : ¬ Task.approve c r = Task.feed c := by simp
      have e4 : ¬ Task.approve c r = Task.setup c := by simp
      rw [e1] at ht
      rw [e2, if_neg (fun h => e3 h.2), if_neg (fun h => e4 h.2)]
      omega
    refine ⟨fun w' hm => ?_, fun w' hm => ?_, fun w' hm => ?_, a4, tokle, fun w' r' hm => ?_, fun ht hr => ?_, fun ht => ⟨(a8 ht).1, by simp [V.set, V.post]⟩, fun ht hv' => ?_⟩
    · rcases mem_post.1 hm with hm | ⟨_, hm⟩
      · exact a1 w' hm
      · simp at hm
    · rcases mem_post.1 hm with hm | ⟨_, hm⟩
      · exact a2 w' hm
      · simp at hm
    · rcases mem_post.1 hm with hm | ⟨_, hm⟩
      · exact a3 w' hm
      · simp at hm
    · rcases mem_post.1 hm with hm | ⟨_, hm⟩
      · exact absurd hm (hna w' r')
      · simp at hm; subst hm; rfl
    · have := a7 ht hr; rw [hv] at this; cases this
    · simp [V.set, V.post] at hv'
      subst hv'
      exact .inr (.inr ⟨w, mem_post.2 (.inr ⟨rfl, rfl⟩)⟩)
  | userDown r us hu =>
    have h1 : V1 g c { v with u := us } := by
      obtain ⟨a1, a2, a3, a4, a5, a6, a7, a8, a9⟩ := h
      refine ⟨a1, a2, a3, a4, ?_, a6, a7, a8, a9⟩
      unfold tok at a5 ⊢
      rw [hu] at a5
      simpa [List.count_cons] using a5
    exact v1_set h1 rfl (fun h => h) rfl rfl (fun a b => h.tlsR a b) (fun a b => (h.ntls a).2 b) (fun h => h) (fun h => h)
  | readable hs ha =>
    split
    · rename_i hr
      exact v1_set h rfl (fun h => h) rfl rfl (fun a b => h.tlsR a (.inl hr)) (fun a b => (h.ntls a).2 (.inl ha)) (fun h => h) (fun h => h)
    · exact h
  | writable hs ha =>
    exact v1_set h rfl (fun h => h) rfl rfl (fun a b => h.tlsR a b) (fun a b => (h.ntls a).2 (.inl ha)) (fun h => h) (fun h => h)
  | hsDone hs ha hh =>
    have htls : g.tls = true := by
      cases e : g.tls with
      | true => rfl
      | false => have := (h.ntls e).1; rw [hh] at this; cases this
    have ht := h.tok
    obtain ⟨a1, a2, a3, a4, a5, a6, a7, a8, a9⟩ := h
    refine ⟨fun w' hm => ?_, fun w' hm => ?_, fun w' hm => ?_, a4, ?_, fun w' r' hm => ?_, a7, by simp [htls], fun ht hv => ?_⟩
    · rcases mem_post.1 hm with hm | ⟨_, hm⟩
      · exact a1 w' hm
      · simp at hm
    · rcases mem_post.1 hm with hm | ⟨_, hm⟩
      · exact a2 w' hm
      · simp at hm
    · rcases mem_post.1 hm with hm | ⟨e, hm⟩
      · exact a3 w' hm
      · exact e
    · unfold tok at ht ⊢
      simp only [count_post]
      rcases e : v.x.worker with _ | w2
      · simp [V.set, V.post, e, hh] at ht ⊢; omega
      · simp [V.set, V.post, e, hh] at ht ⊢; omega
    · rcases mem_post.1 hm with hm | ⟨_, hm⟩
      · exact a6 w' r' hm
      · simp at hm
    · rcases a9 ht hv with h | h | ⟨w', h⟩
      · exact .inl h
      · exact .inr (.inl h)
      · exact .inr (.inr ⟨w', mem_post.2 (.inl h)⟩)
  | ioError hs ha hw => exact v1_wt h
  | sendBuf hs ho hr =>
    exact v1_set h rfl (fun h => h) rfl rfl (fun a b => h.tlsR a b) (fun a b => (h.ntls a).2 (.inr (.inl hr))) (fun h => h) (fun h => h)

/-- The invariant of a whole pool. -/
structure AllV1 (g : Cfg) (s : St) : Prop where
  base : Inv none s
  v1 : ∀ c, c < s.n → V1 g c (view s c)

theorem allV1_init (g : Cfg) : AllV1 g init := ⟨inv_init, by simp [init]⟩

theorem allV1_step {g : Cfg} {s s' : St} {a : Act} (h : AllV1 g s) (hs : step g s a = some s') : AllV1 g s' := by
  obtain ⟨h1, h2, h3⟩ := step_view h.base hs
  refine ⟨inv_step h.base hs, fun c hc => ?_⟩
  by_cases e : c < s.n
  · rcases h2 c e with h2 | h2
    · rw [h2]; exact h.v1 c e
    · exact v1_step (h.v1 c e) h2
  · exact v1_new (h3 c (by omega) hc)

theorem allV1_run {g : Cfg} : ∀ (as : List Act) (s s' : St), AllV1 g s → run g s as = some s' → AllV1 g s' := by
  intro as
  induction as with
  | nil => intro s s' hi h; cases h; exact hi
  | cons a as ih =>
    intro s s' hi h
    simp only [run] at h
    rcases e : step g s a with _ | s1
    · rw [e] at h; cases h
    · rw [e] at h; exact ih s1 s' (allV1_step hi e) h

end Pool
end Salticidae
