import Verif.Lemmas.PoolLoad
namespace Salticidae
namespace Pool

/-- The socket is watched only after `feed`, and answers of the callback go to the connection's worker. -/
structure V4 (c : Nat) (v : V) : Prop where
  sf : v.x.sock = true → v.x.fed = true
  ap : ∀ w r, .approve c r ∈ v.q w → v.x.worker = some w
  ut : ∀ w, .userTerm c ∈ v.q w → w = 0

theorem v4_new {g : Cfg} {c : Nat} {v : V} (h : VNew g c v) : V4 c v := by
  cases h with
  | accept fd w =>
    refine ⟨by simp [newConn], fun w' r hm => ?_, fun w' hm => ?_⟩
    · by_cases e : w' = w
      · subst e; simp at hm
      · simp [upd_ne _ _ e] at hm
    · by_cases e : w' = w
      · subst e; simp at hm
      · simp [upd_ne _ _ e] at hm
  | connect fd => exact ⟨by simp [newConn], by simp, by simp⟩
  | refused fd =>
    refine ⟨by simp [newConn], fun w' r hm => ?_, fun w' hm => ?_⟩
    · by_cases e : w' = 0
      · subst e; simp at hm
      · simp [upd_ne _ _ e] at hm
    · by_cases e : w' = 0
      · exact e
      · simp [upd_ne _ _ e] at hm

theorem v4_set {c : Nat} {v : V} {x : Conn} (h : V4 c v) (e1 : x.worker = v.x.worker) (e2 : x.sock = true → v.x.sock = true)
    (e3 : v.x.fed = true → x.fed = true) : V4 c (v.set x) :=
  ⟨fun hs => e3 (h.sf (e2 hs)), fun w r hm => by rw [show (v.set x).x.worker = x.worker from rfl, e1]; exact h.ap w r hm, h.ut⟩

theorem v4_post {c w : Nat} {v : V} {t : Task} (h : V4 c v) (ht : ∀ r, t = .approve c r → v.x.worker = some w)
    (hu : t = .userTerm c → w = 0) : V4 c (v.post w t) := by
  refine ⟨h.sf, fun w' r hm => ?_, fun w' hm => ?_⟩
  · rcases mem_post.1 hm with h' | ⟨rfl, h'⟩
    · exact h.ap w' r h'
    · exact ht r h'.symm
  · rcases mem_post.1 hm with h' | ⟨rfl, h'⟩
    · exact h.ut w' h'
    · exact hu h'.symm

theorem v4_pop {c w : Nat} {v : V} (h : V4 c v) : V4 c (v.pop w) := ⟨h.sf, fun w' r hm => h.ap w' r (mem_pop hm), fun w' hm => h.ut w' (mem_pop hm)⟩

theorem v4_wt {c : Nat} {v : V} (h : V4 c v) : V4 c (vWorkerTerm v c) := by
  unfold vWorkerTerm
  split
  · exact v4_post (v4_set h rfl (fun h => h) (fun h => h)) (by simp) (by simp)
  · exact h

theorem v4_dt {c : Nat} {v : V} (h : V4 c v) : V4 c (vDispTerm v c) := by
  unfold vDispTerm
  split
  · exact v4_wt h
  · exact v4_post (v4_set h rfl (fun h => h) (fun h => h)) (by simp) (by simp)

theorem v4_td {c : Nat} {v : V} (h : V4 c v) : V4 c (vTeardown v) := v4_set h rfl (by simp) (fun h => h)
theorem v4_del {c : Nat} {v : V} (h : V4 c v) : V4 c (vDel v c) :=
  v4_set (v := v.rep ⟨c, false⟩) ⟨h.sf, h.ap, h.ut⟩ rfl (by simp) (fun h => h)

theorem v4_step {g : Cfg} {c : Nat} {v v' : V} {a : Act} (h1 : V1 g c v) (h : V4 c v) (hs : VStep g c v v' a) : V4 c v' := by
  cases hs with
  | exec w fail t ts hc hq hw =>
    have hp : V4 c (v.pop w) := v4_pop h
    cases t with
    | feed c' =>
      simp only [vExec]; split
      · exact ⟨fun _ => rfl, hp.ap, hp.ut⟩
      · exact v4_post ⟨fun _ => rfl, hp.ap, hp.ut⟩ (by simp) (by simp)
    | setup c' =>
      simp only [vExec]; split
      · exact v4_dt (v4_set hp rfl (fun h => h) (fun h => h))
      · exact ⟨hp.sf, hp.ap, hp.ut⟩
    | wterm c' =>
      simp only [vExec]; split
      · exact hp
      · exact v4_post (v4_td hp) (by simp) (by simp)
    | dterm c' =>
      simp only [vExec]; split
      · exact hp
      · exact v4_del (v4_td hp)
    | userTerm c' => exact v4_dt hp
    | del c' => exact v4_del hp
    | approve c' r =>
      simp only [vExec]; split
      · exact hp
      · split
        · split
          · exact v4_set hp rfl (fun h => h) (fun h => h)
          · exact v4_wt hp
        · exact v4_set hp rfl (fun h => h) (fun h => h)
  | connReady w hev =>
    refine v4_post ⟨h.sf, fun w' r hm => ?_, h.ut⟩ (by simp) (by simp)
    have := h1.tok
    rw [tok_none (h1.ev hev), h1.appr w' r hm] at this
    simp at this
  | connFail timeout hev => exact v4_dt (v4_set h rfl (fun h => h) (fun h => h))
  | terminate => exact v4_post (v4_set h rfl (fun h => h) (fun h => h)) (by simp) (by simp)
  | userUp r w us hu hw => exact v4_post ⟨h.sf, h.ap, h.ut⟩ (fun _ _ => hw) (by simp)
  | userDown r us hu => exact ⟨h.sf, h.ap, h.ut⟩
  | readable hs ha =>
    split
    · exact v4_set h rfl (fun h => h) (fun h => h)
    · exact h
  | writable hs ha => exact v4_set h rfl (fun h => h) (fun h => h)
  | hsDone hs ha hh => exact v4_post (v4_set h rfl (fun h => h) (fun h => h)) (by simp) (by simp)
  | ioError hs ha hw => exact v4_wt h
  | sendBuf hs ho hr => exact v4_set h rfl (fun h => h) (fun h => h)

/-- Everything known of a connection's life when no attempt completes while it is being terminated. -/
structure ConnLife (g : Cfg) (s : St) : Prop where
  v2 : AllV2 g s
  v4 : ∀ c, c < s.n → V4 c (view s c)

theorem connLife_init (g : Cfg) : ConnLife g init := ⟨allV2_init g, by simp [init]⟩

theorem connLife_step {g : Cfg} {s s' : St} {a : Act} (h : ConnLife g s) (hs : step g s a = some s')
    (hc : ∀ c, a = .connReady c → .dterm c ∉ s.wq 0) : ConnLife g s' := by
  obtain ⟨_, h2, h3⟩ := step_view h.v2.v1.base hs
  refine ⟨allV2_step h.v2 hs hc, fun c hcn => ?_⟩
  by_cases e : c < s.n
  · rcases h2 c e with h2 | h2
    · rw [h2]; exact h.v4 c e
    · exact v4_step (h.v2.v1.v1 c e) (h.v4 c e) h2
  · exact v4_new (h3 c (by omega) hcn)

/-! ### What follows for a connection -/

section
variable {g : Cfg} {s : St} {c : Nat} (h : ConnLife g s) (hc : c < s.n)
include h hc

theorem mem_view {w : Nat} {t : Task} (ht : t.conn = c) : t ∈ (view s c).q w ↔ t ∈ s.wq w := by
  simp [view, List.mem_filter, ht]

theorem memU_view {b : Bool} : (⟨c, b⟩ : Upd) ∈ (view s c).u ↔ (⟨c, b⟩ : Upd) ∈ s.uq := by
  simp [view, List.mem_filter]

theorem fed_noFeed (hf : (s.conn c).fed = true) (w : Nat) : .feed c ∉ s.wq w := by
  intro hm
  have := (feed_facts (h.v2.v1.v1 c hc) (h.v2.v2 c hc) ((mem_view h hc rfl).2 hm)).2.1
  rw [show (view s c).x.fed = true from hf] at this; cases this

theorem noDel (ht : (s.conn c).term = false) : .del c ∉ s.wq 0 ∧ (s.conn c).closed = 0 := by
  have := (vonce_of_inv h.v2.v1.base hc).once
  rw [show (view s c).x.term = false from ht] at this
  simp at this
  exact ⟨fun hm => List.count_eq_zero.1 this.1 ((mem_view h hc rfl).2 hm), this.2⟩

theorem noneNoFeed (hw : (s.conn c).worker = none) (w : Nat) : .feed c ∉ s.wq w := by
  intro hm
  have := (h.v2.v1.v1 c hc).feedW w ((mem_view h hc rfl).2 hm)
  rw [show (view s c).x.worker = none from hw] at this; cases this

theorem busy_fed (hb : 0 < ((view s c).q 0).count (.setup c) + (view s c).u.count ⟨c, true⟩ + (s.conn c).verdict.isSome.toNat) :
    (s.conn c).worker ≠ none ∧ (s.conn c).fed = true ∧ (s.conn c).handshake = false := by
  have ht := (h.v2.v1.v1 c hc).tok
  have hx : (view s c).x = s.conn c := rfl
  cases hw : (s.conn c).worker with
  | none => rw [tok_none (by rw [hx]; exact hw), hx] at ht; omega
  | some w =>
    rw [tok_some (by rw [hx]; exact hw), hx] at ht
    have hf := (h.v2.v2 c hc).feedc w (by rw [hx]; exact hw)
    rw [hx] at hf
    refine ⟨by simp, ?_, ?_⟩
    · cases e : (s.conn c).fed with
      | true => rfl
      | false => rw [e] at hf; simp at hf; omega
    · cases e : (s.conn c).handshake with
      | false => rfl
      | true => rw [e] at ht; simp at ht; omega

theorem setup_fed (hm : .setup c ∈ s.wq 0) :
    (s.conn c).worker ≠ none ∧ (s.conn c).fed = true ∧ (s.conn c).handshake = false := by
  have : 0 < ((view s c).q 0).count (.setup c) := List.count_pos_iff.2 ((mem_view h hc rfl).2 hm)
  exact busy_fed h hc (by omega)

theorem upd_fed {b : Bool} (hm : (⟨c, b⟩ : Upd) ∈ s.uq) :
    (b = true → (s.conn c).worker ≠ none) ∧ (((s.conn c).fed = true ∧ (s.conn c).handshake = false) ∨ (s.conn c).closed ≠ 0) := by
  cases b with
  | true =>
    have : 0 < (view s c).u.count ⟨c, true⟩ := List.count_pos_iff.2 ((memU_view h hc).2 hm)
    obtain ⟨h1, h2⟩ := busy_fed h hc (by omega)
    exact ⟨fun _ => h1, .inl h2⟩
  | false =>
    refine ⟨by simp, .inr ?_⟩
    have h1 := (h.v2.v1.base.conn c hc).cb
    have h2 : 0 < s.uq.count ⟨c, false⟩ := List.count_pos_iff.2 hm
    omega

theorem told_fed (hm : (s.conn c).cbs ≠ []) :
    ((s.conn c).fed = true ∧ (s.conn c).handshake = false) ∨ (s.conn c).closed ≠ 0 := by
  have hr := (h.v2.v2 c hc).rep
  have hx : (view s c).x = s.conn c := rfl
  rw [hx] at hr
  rcases Nat.eq_zero_or_pos ((view s c).u.count ⟨c, true⟩ + (s.conn c).verdict.isSome.toNat) with h0 | h0
  · right
    intro hz
    rw [h0, hz] at hr
    simp at hr
    exact hm hr.1
  · exact .inl (busy_fed h hc (by omega)).2

theorem quiet_of (hcl : (s.conn c).closed = 0) (ht : (view s c).u.count ⟨c, true⟩ = 0) (hv : (s.conn c).verdict = none) :
    (s.conn c).cbs = [] ∧ ∀ b, (⟨c, b⟩ : Upd) ∉ s.uq := by
  have hr := (h.v2.v2 c hc).rep
  have hx : (view s c).x = s.conn c := rfl
  rw [hx, ht, hcl, hv] at hr
  simp at hr
  refine ⟨hr.1, fun b hm => ?_⟩
  have := (memU_view h hc).2 hm
  rw [hr.2] at this; simp at this

theorem hs_quiet (hh : (s.conn c).handshake = true) (hcl : (s.conn c).closed = 0) :
    (s.conn c).cbs = [] ∧ (∀ b, (⟨c, b⟩ : Upd) ∉ s.uq) ∧ .setup c ∉ s.wq 0 ∧ g.tls = true := by
  have h1 := h.v2.v1.v1 c hc
  have ht := h1.tok
  have hx : (view s c).x = s.conn c := rfl
  have h3 : (view s c).u.count ⟨c, true⟩ = 0 ∧ (s.conn c).verdict = none ∧ ((view s c).q 0).count (.setup c) = 0 := by
    have hv : ∀ o : Option Bool, o.isSome.toNat = 0 → o = none := by intro o; cases o <;> simp
    cases hw : (s.conn c).worker with
    | none => rw [tok_none (by rw [hx]; exact hw), hx, hh] at ht; simp at ht; omega
    | some w =>
      rw [tok_some (by rw [hx]; exact hw), hx, hh] at ht
      simp only [Bool.toNat_true] at ht
      exact ⟨by omega, hv _ (by omega), by omega⟩
  obtain ⟨a1, a2⟩ := quiet_of h hc hcl h3.1 h3.2.1
  refine ⟨a1, a2, fun hm => ?_, ?_⟩
  · exact List.count_eq_zero.1 h3.2.2 ((mem_view h hc rfl).2 hm)
  · cases e : g.tls with
    | true => rfl
    | false => have := (h1.ntls e).1; rw [hx, hh] at this; cases this

theorem ready_quiet (he : (s.conn c).evConn = true) :
    (s.conn c).worker = none ∧ (s.conn c).fed = false ∧ (s.conn c).cbs = [] ∧ ∀ b, (⟨c, b⟩ : Upd) ∉ s.uq := by
  have h1 := h.v2.v1.v1 c hc
  have h2 := h.v2.v2 c hc
  have hx : (view s c).x = s.conn c := rfl
  have hw : (s.conn c).worker = none := h1.ev he
  have hcl : (s.conn c).closed = 0 := h2.evc he
  have ht := h1.tok
  rw [tok_none (by rw [hx]; exact hw), hx] at ht
  have hv : ∀ o : Option Bool, o.isSome.toNat = 0 → o = none := by intro o; cases o <;> simp
  obtain ⟨a1, a2⟩ := quiet_of h hc hcl (by omega) (hv _ (by omega))
  exact ⟨hw, h2.fedN hw, a1, a2⟩

theorem dterm_none {w : Nat} (hm : .dterm c ∈ s.wq w) : (s.conn c).worker = none ∧ w = 0 ∧ (s.conn c).fed = false ∧ .del c ∉ s.wq 0 := by
  have h2 := h.v2.v2 c hc
  obtain ⟨a, b⟩ := h2.dt w ((mem_view h hc rfl).2 hm)
  refine ⟨a, b, h2.fedN a, fun hd => ?_⟩
  exact h2.delw 0 ((mem_view h hc rfl).2 hd) a

theorem del_facts {w : Nat} (hm : .del c ∈ s.wq w) :
    w = 0 ∧ (s.wq 0).count (.del c) = 1 ∧ (s.conn c).term = true ∧ (s.conn c).worker ≠ none ∧ ∀ w, .feed c ∉ s.wq w := by
  have h2 := h.v2.v2 c hc
  have hb := h.v2.v1.base
  have hw0 : w = 0 := by
    rcases Nat.eq_zero_or_pos w with h0 | h0
    · exact h0
    · exact absurd hm (hb.del0 w c (by omega))
  subst hw0
  have ho := (hb.conn c hc).once
  have hp : 0 < (s.wq 0).count (.del c) := List.count_pos_iff.2 hm
  simp at ho
  have ht : (s.conn c).term = true := by
    cases e : (s.conn c).term with
    | true => rfl
    | false => rw [e] at ho; simp at ho; omega
  rw [ht] at ho
  have hw : (s.conn c).worker ≠ none := h2.delw 0 ((mem_view h hc rfl).2 hm)
  refine ⟨rfl, by simp at ho; omega, ht, hw, fed_noFeed h hc (h2.termFed ht hw)⟩

theorem sock_facts (hs : (s.conn c).sock = true) :
    ∃ w, (s.conn c).worker = some w ∧ (s.conn c).fed = true ∧ (s.conn c).term = false ∧ (∀ w, .feed c ∉ s.wq w) ∧ .del c ∉ s.wq 0 ∧
      (s.conn c).closed = 0 := by
  have hf : (s.conn c).fed = true := (h.v4 c hc).sf hs
  have ht : (s.conn c).term = false := (h.v2.v2 c hc).sockT hs
  have hw : (s.conn c).worker ≠ none := by
    intro hn
    have := (h.v2.v2 c hc).fedN hn
    rw [show (view s c).x.fed = true from hf] at this; cases this
  obtain ⟨w, hw⟩ := Option.ne_none_iff_exists'.1 hw
  exact ⟨w, hw, hf, ht, fed_noFeed h hc hf, (noDel h hc ht).1, (noDel h hc ht).2⟩

theorem wterm_head {w : Nat} {ts : List Task} (hq : s.wq w = .wterm c :: ts) :
    (s.conn c).worker = some w ∧ (s.conn c).fed = true := by
  have hq' : (view s c).q w = .wterm c :: ts.filter (fun t => t.conn = c) := by
    simp [view, hq, List.filter_cons, Task.conn]
  exact wterm_facts (h.v2.v1.v1 c hc) (h.v2.v2 c hc) hq'

theorem approve_facts {w : Nat} {r : Bool} (hm : .approve c r ∈ s.wq w) : (s.conn c).worker = some w ∧ (s.conn c).fed = true := by
  have hv := (h.v2.v1.v1 c hc).appr w r ((mem_view h hc rfl).2 hm)
  refine ⟨(h.v4 c hc).ap w r ((mem_view h hc rfl).2 hm), (busy_fed h hc ?_).2.1⟩
  rw [show (s.conn c).verdict = some r from hv]; simp

end
end Pool
end Salticidae
