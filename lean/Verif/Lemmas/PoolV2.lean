import Verif.Lemmas.PoolV1
namespace Salticidae
namespace Pool

/-- What holds of a connection when no connection attempt succeeds while its termination by the
dispatcher is under way. -/
structure V2 (c : Nat) (v : V) : Prop where
  dt : ∀ w, .dterm c ∈ v.q w → v.x.worker = none ∧ w = 0
  delw : ∀ w, .del c ∈ v.q w → v.x.worker ≠ none
  fedN : v.x.worker = none → v.x.fed = false
  feedc : ∀ w, v.x.worker = some w → (v.q w).count (.feed c) + v.x.fed.toNat = 1
  ord1 : ∀ w, (v.q w).Pairwise (fun a b => ¬ (a = .wterm c ∧ b = .feed c))
  termFed : v.x.term = true → v.x.worker ≠ none → v.x.fed = true
  termNone : v.x.term = true → v.x.worker = none → v.x.closed ≠ 0
  evc : v.x.evConn = true → v.x.closed = 0
  sockT : v.x.sock = true → v.x.term = false
  ord0 : (v.q 0).Pairwise (fun a b => ¬ (a = .del c ∧ b = .setup c))
  closedS : v.x.closed ≠ 0 → .setup c ∉ v.q 0
  rep : v.x.cbs ++ v.u.map (·.connected) =
    List.replicate (v.u.count ⟨c, true⟩ + v.x.verdict.isSome.toNat) true ++ List.replicate v.x.closed false
  stale : v.x.stale = false

theorem v2_new {g : Cfg} {c : Nat} {v : V} (h : VNew g c v) : V2 c v := by
  cases h with
  | accept fd w =>
    have hm : ∀ w' t, t ∈ (upd (fun _ => []) w [Task.feed c]) w' → w' = w ∧ t = .feed c := by
      intro w' t ht
      by_cases e : w' = w
      · subst e; simpa using ht
      · rw [upd_ne _ _ e] at ht; simp at ht
    have hp : ∀ (R : Task → Task → Prop) w', (upd (fun _ => []) w [Task.feed c] w').Pairwise R := by
      intro R w'
      by_cases e : w' = w
      · subst e; simp
      · simp [upd_ne _ _ e]
    refine ⟨fun w' h => by simpa using (hm _ _ h).2, fun w' h => by simpa using (hm _ _ h).2, by simp [newConn], ?_,
      fun w' => hp _ w', by simp [newConn], by simp [newConn], by simp [newConn], by simp [newConn], hp _ 0, by simp [newConn],
      by simp [newConn], rfl⟩
    intro w' hw'
    simp at hw'; subst hw'; simp [newConn]
  | connect fd => constructor <;> simp [newConn]
  | refused fd =>
    have hm : ∀ w' t, t ∈ (upd (fun _ => []) 0 [Task.dterm c]) w' → w' = 0 ∧ t = .dterm c := by
      intro w' t ht
      by_cases e : w' = 0
      · subst e; simpa using ht
      · rw [upd_ne _ _ e] at ht; simp at ht
    have hp : ∀ (R : Task → Task → Prop) w', (upd (fun _ => []) 0 [Task.dterm c] w').Pairwise R := by
      intro R w'
      by_cases e : w' = 0
      · subst e; simp
      · simp [upd_ne _ _ e]
    exact ⟨fun w' h => ⟨rfl, (hm _ _ h).1⟩, fun w' h => by simpa using (hm _ _ h).2, by simp [newConn], by simp [newConn],
      fun w' => hp _ w', by simp [newConn], by simp [newConn], by simp [newConn], by simp [newConn], hp _ 0, by simp [newConn],
      by simp [newConn], rfl⟩

theorem pw_post {v : V} {w w' : Nat} {t : Task} {R : Task → Task → Prop} (h : (v.q w').Pairwise R)
    (h2 : w' = w → ∀ a ∈ v.q w, R a t) : ((v.post w t).q w').Pairwise R := by
  simp only [V.post]
  by_cases e : w' = w
  · subst e; rw [upd_same, List.pairwise_append]
    exact ⟨h, by simp, fun a ha b hb => by simp at hb; subst hb; exact h2 rfl a ha⟩
  · rw [upd_ne _ _ e]; exact h

theorem pw_pop {v : V} {w w' : Nat} {R : Task → Task → Prop} (h : (v.q w').Pairwise R) : ((v.pop w).q w').Pairwise R := by
  simp only [V.pop]
  by_cases e : w' = w
  · subst e; rw [upd_same]; exact h.sublist (List.tail_sublist _)
  · rw [upd_ne _ _ e]; exact h

/-- Posting a closure that is neither `feed` nor `setup`. -/
theorem v2_post {c w : Nat} {v : V} {t : Task} (h : V2 c v) (h1 : t ≠ .feed c) (h2 : t ≠ .setup c)
    (h3 : t = .dterm c → v.x.worker = none ∧ w = 0) (h4 : t = .del c → v.x.worker ≠ none) : V2 c (v.post w t) := by
  obtain ⟨a1, a2, a3, a4, a5, a6, a7, a8, a9, a10, a11, a12, a13⟩ := h
  refine ⟨fun w' h => ?_, fun w' h => ?_, a3, fun w' h => ?_, fun w' => ?_, a6, a7, a8, a9, ?_, fun hc hm => ?_, a12, a13⟩
  · rcases mem_post.1 h with h | ⟨e, h⟩
    · exact a1 w' h
    · rw [e]; exact h3 h.symm
  · rcases mem_post.1 h with h | ⟨_, h⟩
    · exact a2 w' h
    · exact h4 h.symm
  · rw [count_post, if_neg (fun h => h1 h.2)]; exact a4 w' h
  · exact pw_post (a5 w') (fun _ a _ h => h1 h.2)
  · exact pw_post a10 (fun _ a _ h => h2 h.2)
  · rcases mem_post.1 hm with hm | ⟨_, hm⟩
    · exact a11 hc hm
    · exact h2 hm.symm

/-- Changing fields that do not matter. -/
theorem v2_set {c : Nat} {v : V} {x : Conn} (h : V2 c v) (e1 : x.worker = v.x.worker) (e2 : x.fed = v.x.fed)
    (e3 : x.term = v.x.term) (e4 : x.closed = v.x.closed) (e5 : x.evConn = true → v.x.evConn = true)
    (e6 : x.sock = true → v.x.sock = true) (e7 : x.cbs = v.x.cbs) (e8 : x.verdict = v.x.verdict) (e9 : x.stale = v.x.stale) :
    V2 c (v.set x) := by
  obtain ⟨a1, a2, a3, a4, a5, a6, a7, a8, a9, a10, a11, a12, a13⟩ := h
  constructor <;> simp only [V.set, e1, e2, e3, e4, e7, e8, e9]
  · exact a1
  · exact a2
  · exact a3
  · exact a4
  · exact a5
  · exact a6
  · exact a7
  · exact fun h => a8 (e5 h)
  · exact fun h => a9 (e6 h)
  · exact a10
  · exact a11
  · exact a12
  · exact a13

theorem v2_wt {c : Nat} {v : V} (h : V2 c v) : V2 c (vWorkerTerm v c) := by
  unfold vWorkerTerm
  rcases e : v.x.worker with _ | w
  · exact h
  · simp only
    exact v2_post (v2_set h rfl rfl rfl rfl (fun h => h) (fun h => h) rfl rfl rfl) (by simp) (by simp) (by simp) (by simp)

theorem v2_dt {c : Nat} {v : V} (h : V2 c v) : V2 c (vDispTerm v c) := by
  unfold vDispTerm
  rcases e : v.x.worker with _ | w
  · simp only
    exact v2_post (v2_set h rfl rfl rfl rfl (fun h => h) (fun h => h) rfl rfl rfl) (by simp) (by simp)
      (fun _ => ⟨by simp [V.set, e], rfl⟩) (by simp)
  · exact v2_wt h

/-- Taking a closure that is not `feed`. -/
theorem v2_pop {c w : Nat} {v : V} {t : Task} {ts : List Task} (h : V2 c v) (hq : v.q w = t :: ts) (ht : t ≠ .feed c) :
    V2 c (v.pop w) := by
  obtain ⟨a1, a2, a3, a4, a5, a6, a7, a8, a9, a10, a11, a12, a13⟩ := h
  refine ⟨fun w' h => a1 w' (mem_pop h), fun w' h => a2 w' (mem_pop h), a3, fun w' h => ?_, fun w' => pw_pop (a5 w'), a6, a7, a8,
    a9, pw_pop a10, fun hc hm => a11 hc (mem_pop hm), a12, a13⟩
  have := count_pop (w' := w') (t' := .feed c) hq
  rw [if_neg (fun h => ht h.2)] at this
  rw [Nat.add_zero] at this
  rw [this]; exact a4 w' h

/-- The facts of the pool about one connection used here. -/
structure VOnce (c : Nat) (v : V) : Prop where
  once : (v.q 0).count (.del c) + v.x.closed = if v.x.term then 1 else 0
  del0 : ∀ w, w ≠ 0 → .del c ∉ v.q w

theorem v2_del {c : Nat} {v : V} (h : V2 c v) (hs : .setup c ∉ v.q 0) : V2 c (vDel v c) := by
  obtain ⟨a1, a2, a3, a4, a5, a6, a7, a8, a9, a10, a11, a12, a13⟩ := h
  refine ⟨a1, a2, a3, a4, a5, a6, fun _ _ => by simp [vDel, V.set], by simp [vDel, V.set], by simp [vDel, V.set], a10, fun _ => hs, ?_, a13⟩
  simp only [vDel, V.set, V.rep, List.map_append, List.map_cons, List.map_nil, List.count_append]
  rw [← List.append_assoc, a12, List.append_assoc]
  have : List.count ({ c := c, connected := true } : Upd) [{ c := c, connected := false }] = 0 := by simp
  rw [this, Nat.add_zero, List.replicate_succ']

theorem v2_exec {g : Cfg} {c w : Nat} {fail : Bool} {v : V} {t : Task} {ts : List Task} (h1 : V1 g c v) (h : V2 c v)
    (ho : VOnce c v) (hc : t.conn = c) (hq : v.q w = t :: ts) : V2 c (vExec g (v.pop w) c fail t) := by
  have hin : t ∈ v.q w := by rw [hq]; simp
  cases t with
  | feed c' =>
    simp only [Task.conn] at hc; subst hc
    have hw := h1.feedW w hin
    have hcnt : 0 < (v.q w).count (.feed c') := List.count_pos_iff.2 hin
    have hf := h.feedc w hw
    have hfed : v.x.fed = false := by cases e : v.x.fed <;> simp [e] at hf ⊢; omega
    have hterm : v.x.term = false := by
      cases e : v.x.term with
      | false => rfl
      | true => have := h.termFed e (by rw [hw]; simp); rw [hfed] at this; cases this
    have hcl : v.x.closed = 0 ∧ (v.q 0).count (.del c') = 0 := by
      have := ho.once; rw [hterm] at this; simp at this; omega
    have e2 := count_pop (w' := w) (t' := .feed c') hq
    simp only [and_self, if_true] at e2
    obtain ⟨a1, a2, a3, a4, a5, a6, a7, a8, a9, a10, a11, a12, a13⟩ := h
    have hst : (v.x.stale || v.x.closed != 0) = false := by simp [a13, hcl.1]
    have key : V2 c' ((v.pop w).set { v.x with sock := true, fed := true, stale := v.x.stale || v.x.closed != 0 }) := by
      refine ⟨fun w' h => a1 w' (mem_pop h), fun w' h => a2 w' (mem_pop h), fun hn => ?_, fun w' hw' => ?_,
        fun w' => pw_pop (a5 w'), fun _ _ => rfl, a7, a8, fun _ => hterm, pw_pop a10, fun hc hm => a11 hc (mem_pop hm), a12, hst⟩
      · simp [V.set, hw] at hn
      · simp [V.set, hw] at hw'
        subst hw'
        have e3 : ((v.pop w).set { v.x with sock := true, fed := true, stale := v.x.stale || v.x.closed != 0 }).q = (v.pop w).q := rfl
        rw [e3]
        simp [V.set]
        rw [hfed] at hf
        simp at hf
        omega
    have k : ∀ x : Conn, x.worker = v.x.worker → x.fed = true → x.term = v.x.term → x.closed = v.x.closed →
        x.evConn = v.x.evConn → x.cbs = v.x.cbs → x.verdict = v.x.verdict → x.stale = (v.x.stale || v.x.closed != 0) →
        V2 c' ((v.pop w).set x) := by
      intro x f1 f2 f3 f4 f5 f6 f7 f8
      have := v2_set (x := x) key f1 f2 f3 f4 (fun h => f5 ▸ h) (fun _ => rfl) f6 f7 f8
      exact this
    simp only [vExec]
    by_cases htls : g.tls = true
    · rw [if_pos htls]
      exact k _ rfl rfl rfl rfl rfl rfl rfl rfl
    · rw [if_neg htls]
      have k2 : V2 c' ((v.pop w).set { v.x with
          sock := true, fed := true, stale := v.x.stale || v.x.closed != 0, recvData := true, handshake := false
          sendOn := true, wSetup := v.x.wSetup + 1 }) :=
        k _ rfl rfl rfl rfl rfl rfl rfl rfl
      obtain ⟨b1, b2, b3, b4, b5, b6, b7, b8, b9, b10, b11, b12, b13⟩ := k2
      refine ⟨fun w' hm => ?_, fun w' hm => ?_, b3, fun w' hw' => ?_, fun w' => ?_, b6, b7, b8, b9, ?_, fun hc _ => ?_, b12, b13⟩
      · rcases mem_post.1 hm with hm | ⟨_, hm⟩
        · exact b1 w' hm
        · simp at hm
      · rcases mem_post.1 hm with hm | ⟨_, hm⟩
        · exact b2 w' hm
        · simp at hm
      · rw [count_post, if_neg (by simp)]; exact b4 w' hw'
      · exact pw_post (b5 w') (by simp)
      · refine pw_post b10 (fun _ a ha hh => ?_)
        have : .del c' ∈ v.q 0 := mem_pop (hh.1 ▸ ha)
        have := List.count_pos_iff.2 this
        omega
      · exact absurd hcl.1 hc
  | setup c' =>
    simp only [Task.conn] at hc; subst hc
    have h0 := h1.set0 w hin
    subst h0
    have hp := v2_pop h hq (by simp)
    have hcl : v.x.closed = 0 := by
      cases e : v.x.closed with
      | zero => rfl
      | succ k => exact absurd hin (h.closedS (by rw [e]; simp))
    have hs : V2 c' ((v.pop 0).set { (v.pop 0).x with dSetup := (v.pop 0).x.dSetup + 1 }) :=
      v2_set hp rfl rfl rfl rfl (fun h => h) (fun h => h) rfl rfl rfl
    simp only [vExec]
    split
    · exact v2_dt hs
    · obtain ⟨a1, a2, a3, a4, a5, a6, a7, a8, a9, a10, a11, a12, a13⟩ := hs
      refine ⟨a1, a2, a3, a4, a5, a6, a7, a8, a9, a10, a11, ?_, a13⟩
      have a12' := h.rep
      rw [hcl] at a12'
      simp only [List.replicate_zero, List.append_nil] at a12'
      simp only [V.rep, V.set, V.pop, List.map_append, List.map_cons, List.map_nil, hcl, List.count_append]
      have : List.count ({ c := c', connected := true } : Upd) [{ c := c', connected := true }] = 1 := by simp
      rw [this, List.replicate_zero, List.append_nil, ← List.append_assoc, a12', ← List.replicate_succ']
      congr 1
      omega
  | wterm c' =>
    simp only [Task.conn] at hc; subst hc
    have hw := h1.wtW w hin
    have hp := v2_pop h hq (by simp)
    simp only [vExec]
    have e0 : (v.pop w).x = v.x := rfl
    by_cases htm : v.x.term = true
    · rw [if_pos (by rw [e0]; exact htm)]; exact hp
    · rw [if_neg (by rw [e0]; exact htm)]
      have hnf : .feed c' ∉ v.q w := by
        intro hm
        have := h.ord1 w
        rw [hq, List.pairwise_cons] at this
        rw [hq] at hm
        rcases List.mem_cons.1 hm with hm | hm
        · simp at hm
        · exact this.1 _ hm ⟨rfl, rfl⟩
      have hfed : v.x.fed = true := by
        have := h.feedc w hw
        rw [List.count_eq_zero.2 hnf] at this
        cases e : v.x.fed <;> simp [e] at this ⊢
      refine v2_post ?_ (by simp) (by simp) (by simp) (fun _ => by simp [vTeardown, V.set, V.pop, hw])
      obtain ⟨a1, a2, a3, a4, a5, a6, a7, a8, a9, a10, a11, a12, a13⟩ := hp
      refine ⟨a1, a2, a3, a4, a5, fun _ _ => hfed, fun _ hn => ?_, a8, by simp [vTeardown, V.set], a10, a11, a12, a13⟩
      simp [vTeardown, V.set, V.pop, hw] at hn
  | dterm c' =>
    simp only [Task.conn] at hc; subst hc
    obtain ⟨hw, h0⟩ := h.dt w hin
    subst h0
    have hp := v2_pop h hq (by simp)
    simp only [vExec]
    have e0 : (v.pop 0).x = v.x := rfl
    by_cases htm : v.x.term = true
    · rw [if_pos (by rw [e0]; exact htm)]; exact hp
    · rw [if_neg (by rw [e0]; exact htm)]
      have hns : .setup c' ∉ v.q 0 := by
        have := h1.tok
        rw [tok_none hw] at this
        exact List.count_eq_zero.1 (by omega)
      have hns' : .setup c' ∉ (v.pop 0).q 0 := fun h => hns (mem_pop h)
      obtain ⟨a1, a2, a3, a4, a5, a6, a7, a8, a9, a10, a11, a12, a13⟩ := hp
      -- teardown and deletion in one closure
      refine ⟨a1, a2, a3, a4, a5, fun _ hn => absurd hw hn, fun _ _ => by simp [vDel, vTeardown, V.set], by simp [vDel, V.set],
        by simp [vDel, V.set], a10, fun _ => hns', ?_, a13⟩
      simp only [vDel, vTeardown, V.set, V.rep, List.map_append, List.map_cons, List.map_nil, List.count_append]
      rw [← List.append_assoc, a12, List.append_assoc]
      have : List.count ({ c := c', connected := true } : Upd) [{ c := c', connected := false }] = 0 := by simp
      rw [this, Nat.add_zero, List.replicate_succ']
  | userTerm c' => exact v2_dt (v2_pop h hq (by simp))
  | del c' =>
    simp only [Task.conn] at hc; subst hc
    have hp := v2_pop h hq (by simp)
    refine v2_del hp ?_
    by_cases e : w = 0
    · subst e
      intro hm
      have := h.ord0
      rw [hq, List.pairwise_cons] at this
      simp only [V.pop, upd_same, hq, List.tail_cons] at hm
      exact this.1 _ hm ⟨rfl, rfl⟩
    · exact absurd hin (ho.del0 w e)
  | approve c' r =>
    simp only [Task.conn] at hc; subst hc
    have hp := v2_pop h hq (by simp)
    simp only [vExec]
    split
    · exact hp
    · split
      · split
        · exact v2_set hp rfl rfl rfl rfl (fun h => h) (fun h => h) rfl rfl rfl
        · exact v2_wt hp
      · exact v2_set hp rfl rfl rfl rfl (fun h => h) (fun h => h) rfl rfl rfl

theorem v2_step {g : Cfg} {c : Nat} {v v' : V} {a : Act} (h1 : V1 g c v) (h : V2 c v) (ho : VOnce c v)
    (hcl : a = .connReady c → .dterm c ∉ v.q 0) (hs : VStep g c v v' a) : V2 c v' := by
  cases hs with
  | exec w fail t ts hc hq hw => exact v2_exec h1 h ho hc hq
  | connReady w hev =>
    have hw := h1.ev hev
    have hnd := hcl rfl
    have hc0 := h.evc hev
    have htm : v.x.term = false := by
      cases e : v.x.term with
      | false => rfl
      | true => exact absurd hc0 (h.termNone e hw)
    have hnf : ∀ w, .feed c ∉ v.q w := fun w' hm => by have := h1.feedW w' hm; rw [hw] at this; cases this
    have hnw : ∀ w, .wterm c ∉ v.q w := fun w' hm => by have := h1.wtW w' hm; rw [hw] at this; cases this
    have hfed := h.fedN hw
    obtain ⟨a1, a2, a3, a4, a5, a6, a7, a8, a9, a10, a11, a12, a13⟩ := h
    refine ⟨fun w' hm => ?_, fun w' hm => by simp [V.set, V.post], by simp [V.set, V.post], fun w' hw' => ?_, fun w' => ?_,
      fun ht => ?_, by simp [V.set, V.post], by simp [V.set, V.post], a9, ?_, fun hc => absurd hc0 hc, a12, a13⟩
    · rcases mem_post.1 hm with hm | ⟨_, hm⟩
      · have := (a1 w' hm).2
        subst this; exact absurd hm hnd
      · simp at hm
    · simp [V.set, V.post] at hw'
      subst hw'
      rw [count_post]
      have e : ((v.set { v.x with evConn := false, worker := some w }).q w).count (.feed c) = 0 := List.count_eq_zero.2 (hnf w)
      rw [e]
      simp [V.set, V.post, hfed]
    · exact pw_post (a5 w') (fun _ a ha hh => hnw w (hh.1 ▸ ha))
    · simp [V.set, V.post, htm] at ht
    · exact pw_post a10 (by simp)
  | connFail timeout hev =>
    exact v2_dt (v2_set h rfl rfl rfl rfl (fun _ => hev) (fun h => h) rfl rfl rfl)
  | terminate =>
    exact v2_post (v2_set h rfl rfl rfl rfl (fun h => h) (fun h => h) rfl rfl rfl) (by simp) (by simp) (by simp) (by simp)
  | userUp r w us hu hw =>
    have ht := h1.tok
    rw [tok_some hw, hu, List.count_cons_self] at ht
    have hv : v.x.verdict = none := by
      cases e : v.x.verdict with
      | none => rfl
      | some r => rw [e] at ht; simp at ht
    refine v2_post ?_ (by simp) (by simp) (by simp) (by simp)
    obtain ⟨a1, a2, a3, a4, a5, a6, a7, a8, a9, a10, a11, a12, a13⟩ := h
    refine ⟨a1, a2, a3, a4, a5, a6, a7, a8, a9, a10, a11, ?_, a13⟩
    rw [hu, hv, List.count_cons_self] at a12
    simp only [V.set]
    simpa using a12
  | userDown r us hu =>
    obtain ⟨a1, a2, a3, a4, a5, a6, a7, a8, a9, a10, a11, a12, a13⟩ := h
    refine ⟨a1, a2, a3, a4, a5, a6, a7, a8, a9, a10, a11, ?_, a13⟩
    rw [hu, List.count_cons] at a12
    simp only [V.set]
    simpa using a12
  | readable hs ha =>
    split
    · exact v2_set h rfl rfl rfl rfl (fun h => h) (fun h => h) rfl rfl rfl
    · exact h
  | writable hs ha => exact v2_set h rfl rfl rfl rfl (fun h => h) (fun h => h) rfl rfl rfl
  | hsDone hs ha hh =>
    have htm := h.sockT hs
    have hcl : v.x.closed = 0 ∧ (v.q 0).count (.del c) = 0 := by
      have := ho.once; rw [htm] at this; simp at this; omega
    have k := v2_set (x := { v.x with handshake := false, armed := false, sendOn := true, wSetup := v.x.wSetup + 1 }) h
      rfl rfl rfl rfl (fun h => h) (fun h => h) rfl rfl rfl
    obtain ⟨b1, b2, b3, b4, b5, b6, b7, b8, b9, b10, b11, b12, b13⟩ := k
    refine ⟨fun w' hm => ?_, fun w' hm => ?_, b3, fun w' hw' => ?_, fun w' => ?_, b6, b7, b8, b9, ?_, fun hc _ => ?_, b12, b13⟩
    · rcases mem_post.1 hm with hm | ⟨_, hm⟩
      · exact b1 w' hm
      · simp at hm
    · rcases mem_post.1 hm with hm | ⟨_, hm⟩
      · exact b2 w' hm
      · simp at hm
    · rw [count_post, if_neg (by simp)]; exact b4 w' hw'
    · exact pw_post (b5 w') (by simp)
    · refine pw_post b10 (fun _ a ha hh => ?_)
      have : .del c ∈ v.q 0 := hh.1 ▸ ha
      have := List.count_pos_iff.2 this
      omega
    · exact absurd hcl.1 hc
  | ioError hs ha hw => exact v2_wt h
  | sendBuf hs ho' hr => exact v2_set h rfl rfl rfl rfl (fun h => h) (fun h => h) rfl rfl rfl

theorem vonce_of_inv {s : St} {c : Nat} (h : Inv none s) (hc : c < s.n) : VOnce c (view s c) := by
  refine ⟨?_, fun w hw hm => h.del0 w c hw (List.mem_filter.1 hm).1⟩
  have := (h.conn c hc).once
  show List.count (.del c) ((s.wq 0).filter (fun t => t.conn = c)) + (s.conn c).closed = if (s.conn c).term then 1 else 0
  rw [List.count_filter (by simp [Task.conn])]
  simpa using this

end Pool
end Salticidae
