import Verif.Lemmas.PoolV1
namespace Salticidae
namespace Pool

/-- `connected` is reported once for each answer; nothing is terminated unless asked for. -/
structure V3 (c : Nat) (v : V) : Prop where
  cbsT : v.x.cbs.count true = v.x.verdict.isSome.toNat
  askd : v.x.term = true ∨ (∃ w, .wterm c ∈ v.q w ∨ .dterm c ∈ v.q w) → v.x.asked = true

theorem v3_new {g : Cfg} {c : Nat} {v : V} (h : VNew g c v) : V3 c v := by
  cases h with
  | accept fd w =>
    refine ⟨by simp [newConn], ?_⟩
    rintro (h | ⟨w', h⟩)
    · simp [newConn] at h
    · by_cases e : w' = w
      · subst e; simp at h
      · simp [upd_ne _ _ e] at h
  | connect fd => constructor <;> simp [newConn]
  | refused fd => exact ⟨by simp [newConn], fun _ => rfl⟩

theorem v3_set {c : Nat} {v : V} {x : Conn} (h : V3 c v) (e1 : x.cbs = v.x.cbs) (e2 : x.verdict = v.x.verdict)
    (e3 : x.term = v.x.term) (e4 : v.x.asked = true → x.asked = true) : V3 c (v.set x) := by
  refine ⟨by simp only [V.set, e1, e2]; exact h.cbsT, ?_⟩
  simp only [V.set, e3]
  exact fun hh => e4 (h.askd hh)

theorem v3_post {c w : Nat} {v : V} {t : Task} (h : V3 c v) (ht : t = .wterm c ∨ t = .dterm c → v.x.asked = true) :
    V3 c (v.post w t) := by
  refine ⟨h.cbsT, ?_⟩
  rintro (hh | ⟨w', hh | hh⟩)
  · exact h.askd (.inl hh)
  · rcases mem_post.1 hh with hh | ⟨_, hh⟩
    · exact h.askd (.inr ⟨w', .inl hh⟩)
    · exact ht (.inl hh.symm)
  · rcases mem_post.1 hh with hh | ⟨_, hh⟩
    · exact h.askd (.inr ⟨w', .inr hh⟩)
    · exact ht (.inr hh.symm)

theorem v3_pop {c w : Nat} {v : V} (h : V3 c v) : V3 c (v.pop w) := by
  refine ⟨h.cbsT, ?_⟩
  rintro (hh | ⟨w', hh | hh⟩)
  · exact h.askd (.inl hh)
  · exact h.askd (.inr ⟨w', .inl (mem_pop hh)⟩)
  · exact h.askd (.inr ⟨w', .inr (mem_pop hh)⟩)

theorem v3_wt {c : Nat} {v : V} (h : V3 c v) : V3 c (vWorkerTerm v c) := by
  unfold vWorkerTerm
  split
  · exact v3_post (v3_set h rfl rfl rfl (fun _ => rfl)) (fun _ => rfl)
  · exact h

theorem v3_dt {c : Nat} {v : V} (h : V3 c v) : V3 c (vDispTerm v c) := by
  unfold vDispTerm
  split
  · exact v3_wt h
  · exact v3_post (v3_set h rfl rfl rfl (fun _ => rfl)) (fun _ => rfl)

theorem v3_td {c : Nat} {v : V} (h : V3 c v) (ha : v.x.asked = true) : V3 c (vTeardown v) := ⟨h.cbsT, fun _ => ha⟩

theorem v3_del {c : Nat} {v : V} (h : V3 c v) : V3 c (vDel v c) := ⟨h.cbsT, h.askd⟩

theorem v3_step {g : Cfg} {c : Nat} {v v' : V} {a : Act} (h1 : V1 g c v) (h : V3 c v) (hs : VStep g c v v' a) : V3 c v' := by
  cases hs with
  | exec w fail t ts hc hq hw =>
    have hin : t ∈ v.q w := by rw [hq]; simp
    have hp : V3 c (v.pop w) := v3_pop h
    cases t with
    | feed c' =>
      simp only [vExec]; split
      · exact v3_set hp rfl rfl rfl (fun h => h)
      · exact v3_post (v3_set hp rfl rfl rfl (fun h => h)) (by simp)
    | setup c' =>
      simp only [vExec]; split
      · exact v3_dt (v3_set hp rfl rfl rfl (fun h => h))
      · exact ⟨hp.cbsT, hp.askd⟩
    | wterm c' =>
      simp only [Task.conn] at hc; subst hc
      simp only [vExec]; split
      · exact hp
      · exact v3_post (v3_td hp (h.askd (.inr ⟨w, .inl hin⟩))) (by simp)
    | dterm c' =>
      simp only [Task.conn] at hc; subst hc
      simp only [vExec]; split
      · exact hp
      · exact v3_del (v3_td hp (h.askd (.inr ⟨w, .inr hin⟩)))
    | userTerm c' => exact v3_dt hp
    | del c' => exact v3_del hp
    | approve c' r =>
      simp only [vExec]; split
      · exact hp
      · split
        · split
          · exact v3_set hp rfl rfl rfl (fun h => h)
          · exact v3_wt hp
        · exact v3_set hp rfl rfl rfl (fun h => h)
  | connReady w hev => exact v3_post (v3_set h rfl rfl rfl (fun h => h)) (by simp)
  | connFail timeout hev => exact v3_dt (v3_set h rfl rfl rfl (fun h => h))
  | terminate => exact v3_post (v3_set h rfl rfl rfl (fun _ => rfl)) (fun _ => rfl)
  | userUp r w us hu hw =>
    have ht := h1.tok
    rw [tok_some hw, hu, List.count_cons_self] at ht
    have hv : v.x.verdict = none := by
      cases e : v.x.verdict with
      | none => rfl
      | some r => rw [e] at ht; simp at ht
    refine v3_post ⟨?_, h.askd⟩ (by simp)
    have := h.cbsT
    rw [hv] at this
    simp only [V.set, List.count_append, this]; simp
  | userDown r us hu =>
    refine ⟨?_, h.askd⟩
    simp only [V.set, List.count_append, h.cbsT]; simp
  | readable hs ha =>
    split
    · exact v3_set h rfl rfl rfl (fun h => h)
    · exact h
  | writable hs ha => exact v3_set h rfl rfl rfl (fun h => h)
  | hsDone hs ha hh => exact v3_post (v3_set h rfl rfl rfl (fun h => h)) (by simp)
  | ioError hs ha hw => exact v3_wt h
  | sendBuf hs ho hr => exact v3_set h rfl rfl rfl (fun h => h)

theorem allV3_run {g : Cfg} : ∀ (as : List Act) (s s' : St), AllV1 g s → (∀ c, c < s.n → V3 c (view s c)) →
    run g s as = some s' → ∀ c, c < s'.n → V3 c (view s' c) := by
  intro as
  induction as with
  | nil => intro s s' _ hi h; cases h; exact hi
  | cons a as ih =>
    intro s s' h1 hi h
    simp only [run] at h
    rcases e : step g s a with _ | s1
    · rw [e] at h; cases h
    · rw [e] at h
      refine ih s1 s' (allV1_step h1 e) (fun c hc => ?_) h
      obtain ⟨_, h2, h3⟩ := step_view h1.base e
      by_cases e' : c < s.n
      · rcases h2 c e' with h2 | h2
        · rw [h2]; exact hi c e'
        · exact v3_step (h1.v1 c e') (hi c e') h2
      · exact v3_new (h3 c (by omega) hc)

/-! ### select_worker -/

theorem selectLoop_spec (load : Nat → Int) : ∀ (is : List Nat) (idx : Nat),
    (selectLoop load is idx (load idx) ∈ idx :: is) ∧ load (selectLoop load is idx (load idx)) ≤ load idx ∧
    ∀ i ∈ is, load (selectLoop load is idx (load idx)) ≤ load i := by
  intro is
  induction is with
  | nil => intro idx; simp [selectLoop]
  | cons i is ih =>
    intro idx
    simp only [selectLoop]
    split
    · rename_i hlt
      obtain ⟨h1, h2, h3⟩ := ih i
      refine ⟨List.mem_cons_of_mem _ h1, by omega, ?_⟩
      intro j hj
      rcases List.mem_cons.1 hj with hj | hj
      · subst hj; exact h2
      · exact h3 j hj
    · rename_i hlt
      obtain ⟨h1, h2, h3⟩ := ih idx
      refine ⟨?_, h2, ?_⟩
      · rcases List.mem_cons.1 h1 with h | h
        · rw [h]; simp
        · exact List.mem_cons_of_mem _ (List.mem_cons_of_mem _ h)
      · intro j hj
        rcases List.mem_cons.1 hj with hj | hj
        · subst hj; omega
        · exact h3 j hj

theorem selectWorker_spec {nw : Nat} (h : 0 < nw) (load : Nat → Int) :
    selectWorker nw load < nw ∧ ∀ i, i < nw → load (selectWorker nw load) ≤ load i := by
  obtain ⟨h1, h2, h3⟩ := selectLoop_spec load (List.range nw) 0
  refine ⟨?_, fun i hi => h3 i (List.mem_range.2 hi)⟩
  rcases List.mem_cons.1 h1 with e | e
  · unfold selectWorker; rw [e]; exact h
  · exact List.mem_range.1 e

/-! ### stop -/

/-- What the loop of stop_workers does to one connection. -/
def tdConn (x : Conn) : Conn :=
  { x with
    term := true, sock := false, armed := false, sendOn := false, evConn := false
    wDown := x.wDown + 1, dDown := x.dDown + 1, closed := x.closed + 1 }

theorem td_conn (s : St) (c d : Nat) : (releaseConn (workerTeardown s c) c).conn d = if d = c then tdConn (s.conn c) else s.conn d := by
  by_cases e : d = c
  · subst e; simp [releaseConn, workerTeardown, setConn, tdConn]
  · simp [releaseConn, workerTeardown, setConn, e, upd_ne _ _ e]

theorem foldl_td : ∀ (l : List (Nat × Nat)) (s : St), (l.map (·.2)).Nodup → ∀ d,
    (l.foldl (fun s e => releaseConn (workerTeardown s e.2) e.2) s).conn d =
      if d ∈ l.map (·.2) then tdConn (s.conn d) else s.conn d := by
  intro l
  induction l with
  | nil => intro s _ d; simp
  | cons e l ih =>
    intro s hn d
    simp only [List.map_cons, List.nodup_cons] at hn
    rw [List.foldl_cons, ih _ hn.2 d, td_conn]
    by_cases h : d = e.2
    · subst h
      rw [if_neg hn.1]; simp
    · by_cases h2 : d ∈ l.map (·.2)
      · rw [if_pos h2, if_neg h, if_pos (by simp only [List.map_cons]; exact List.mem_cons_of_mem _ h2)]
      · rw [if_neg h2, if_neg h, if_neg]
        simp only [List.map_cons, List.mem_cons, not_or]
        exact ⟨h, h2⟩

theorem pool_snd_nodup {s : St} (h : Inv none s) : (s.pool.map (·.2)).Nodup := by
  have h1 := h.nodup
  rw [List.Nodup, List.pairwise_map] at h1 ⊢
  refine List.Pairwise.imp_of_mem ?_ h1
  intro a b ha hb hne he
  have e1 := (h.pool a ha).2.2
  have e2 := (h.pool b hb).2.2
  rw [he] at e1
  exact hne (e1.symm.trans e2)

theorem finalize_conn {s : St} (h : Inv none s) {c : Nat} (hc : c < s.n) :
    (finalize s).conn c = if (s.conn c).closed = 0 then tdConn (s.conn c) else s.conn c := by
  unfold finalize
  rw [foldl_td _ _ (pool_snd_nodup h)]
  by_cases e : (s.conn c).closed = 0
  · rw [if_pos e, if_pos]
    exact List.mem_map.2 ⟨_, (h.conn c hc).inpool e, rfl⟩
  · rw [if_neg e, if_neg]
    intro hm
    obtain ⟨p, hp, rfl⟩ := List.mem_map.1 hm
    exact e (h.pool p hp).2.1

theorem foldl_td_n : ∀ (l : List (Nat × Nat)) (s : St), (l.foldl (fun s e => releaseConn (workerTeardown s e.2) e.2) s).n = s.n := by
  intro l
  induction l with
  | nil => intro s; rfl
  | cons e l ih => intro s; rw [List.foldl_cons, ih]; rfl

theorem finalize_n (s : St) : (finalize s).n = s.n := foldl_td_n _ _

end Pool
end Salticidae
