import Verif.Lemmas.RacesStep
namespace Salticidae
namespace Races
open Spec.Races
open Pool (Cfg Task Upd)

theorem all_pool {g : Cfg} {r : St} {a : Pool.Act} {s' : Pool.St} (h : All g r) (hs : Pool.step g r.pool a = some s')
    (hc : ∀ c, a = .connReady c → .dterm c ∉ r.pool.wq 0) : All g (next g r a s') := by
  have hv := Pool.connLife_step h.life hs hc
  cases a with
  | accept fd =>
    simp only [Pool.step] at hs
    split at hs
    · cases hs
      refine wrapNew (N := fun _ t => t = .feed r.pool.n) h hv (popped_other h (by simp) (by simp))
        (grow_post (grow_same rfl rfl) rfl) (fun _ _ h => .inl h) ?_ rfl ?_ ?_ rfl rfl ?_
      · intro d hd; simp [Pool.post, Pool.upd_ne _ _ hd]
      · simp [Pool.post, Pool.newConn]
      · simp [Pool.post, Pool.newConn]
      · rintro ⟨x, l⟩ hx; simp [event, all] at hx; grind
    · cases hs
  | acceptFail =>
    simp only [Pool.step] at hs
    split at hs
    · cases hs
      exact wrapIdle h hv (popped_other h (by simp) (by simp)) rfl rfl rfl rfl rfl rfl
    · cases hs
  | listen =>
    simp only [Pool.step] at hs
    cases hs
    exact wrapIdle h hv (popped_other h (by simp) (by simp)) rfl rfl rfl rfl rfl rfl
  | connect fd ok =>
    simp only [Pool.step] at hs
    split at hs
    · cases hs
      refine wrapNew (N := fun _ t => t = .dterm r.pool.n) h hv (popped_other h (by simp) (by simp)) ?_
        (fun _ _ h => .inr h) ?_ ?_ ?_ ?_ rfl rfl ?_
      · split
        · exact grow_same rfl rfl
        · simp only [Pool.dispTerminate, Pool.upd_same, Pool.newConn]
          exact grow_post (grow_same rfl rfl) rfl
      · intro d hd; split
        · simp [Pool.upd_ne _ _ hd]
        · rw [dt_conn_ne _ hd]; simp [Pool.upd_ne _ _ hd]
      · split
        · rfl
        · rw [dt_n]
      · split
        · simp [Pool.newConn]
        · rw [(keeps_dt _ _).fed]; simp [Pool.newConn]
      · split
        · simp [Pool.newConn]
        · rw [(keeps_dt _ _).cbs]; simp [Pool.newConn]
      · rintro ⟨x, l⟩ hx; simp [event, all] at hx; grind
    · cases hs
  | connReady c =>
    simp only [Pool.step] at hs
    split at hs
    · rename_i hg
      cases hs
      exact all_ready h hv hg.1 hg.2 rfl
    · cases hs
  | connFail c timeout =>
    simp only [Pool.step] at hs
    split at hs
    · rename_i hg
      cases hs
      refine all_dispEv (c := c) h hv (popped_other h (by simp) (by simp)) hg.1 ?_ ?_ ?_ ?_ (.inl rfl) ?_ ?_
      · exact keeps_trans (keeps_dt _ _) ⟨by simp [Pool.setConn], by simp [Pool.setConn], by simp [Pool.setConn], by simp [Pool.setConn],
          by simp [Pool.setConn], by simp [Pool.setConn]⟩
      · exact grow_dt (grow_same rfl rfl) (fun _ => .inl rfl) (fun _ => .inr (.inl rfl))
      · rw [dt_n]; rfl
      · intro d hd; rw [dt_conn_ne _ hd]; simp [Pool.setConn, Pool.upd_ne _ _ hd]
      · simp [event]
      · simp [event]
    · cases hs
  | terminate c =>
    simp only [Pool.step] at hs
    split at hs
    · rename_i hg
      cases hs
      refine all_dispEv (c := c) h hv (popped_other h (by simp) (by simp)) hg ?_ ?_ rfl ?_ (.inr ⟨rfl, rfl⟩) ?_ ?_
      · exact ⟨by simp [Pool.post, Pool.setConn], by simp [Pool.post, Pool.setConn], by simp [Pool.post, Pool.setConn],
          by simp [Pool.post, Pool.setConn], by simp [Pool.post, Pool.setConn], by simp [Pool.post, Pool.setConn]⟩
      · exact grow_post (grow_same rfl rfl) (.inr (.inr rfl))
      · intro d hd; simp [Pool.post, Pool.setConn, Pool.upd_ne _ _ hd]
      · simp [event]
      · simp [event]
    · cases hs
  | exec w fail =>
    simp only [Pool.step] at hs
    split at hs
    · cases hs
    · rename_i t ts hq
      cases hs
      have hcn : t.conn < r.pool.n := h.life.v2.v1.base.valid w t (by rw [hq]; simp)
      cases t with
      | feed c => exact all_feed h hv hcn hq rfl
      | setup c => exact all_setup h hv hcn hq rfl
      | wterm c =>
        by_cases ht : (r.pool.conn c).term = true
        · exact all_skip (c := c) h hv hcn hq (by simp [taskReads, ht]) (by simp [taskWrites, ht]) (by simp [Pool.execTask, ht])
        · simp only [Bool.not_eq_true] at ht
          exact all_wterm (c := c) h hv hcn hq ht (by simp [Pool.execTask, ht])
      | dterm c =>
        by_cases ht : (r.pool.conn c).term = true
        · exact all_skip (c := c) h hv hcn hq (by simp [taskReads, ht]) (by simp [taskWrites, ht]) (by simp [Pool.execTask, ht])
        · simp only [Bool.not_eq_true] at ht
          exact all_dterm (c := c) h hv hcn hq ht (by simp [Pool.execTask, ht])
      | userTerm c =>
        obtain ⟨p, tl, htq⟩ := head_tag ((h.tq w).trans hq)
        have hw0 : w = 0 := (h.life.v4 c hcn).ut w ((Pool.mem_view h.life hcn rfl).2 (by rw [hq]; simp))
        subst hw0
        refine all_dispEv (c := c) h hv (popped_exec h hq) hcn ?_ ?_ ?_ ?_ (.inl ?_) ?_ ?_
        · exact keeps_dt _ _
        · exact grow_dt (grow_same rfl rfl) (fun _ => .inl rfl) (fun _ => .inr (.inl rfl))
        · simp only [Pool.execTask]; rw [dt_n]
        · intro d hd; simp only [Pool.execTask]; rw [dt_conn_ne _ hd]
        · simp [event, htq]
        · simp [event, htq, taskReads]
        · simp [event, htq, taskWrites]
      | del c => exact all_del h hv hcn hq rfl
      | approve c b =>
        by_cases ht : (r.pool.conn c).term = true
        · exact all_skip (c := c) h hv hcn hq (by simp [taskReads, ht]) (by simp [taskWrites, ht]) (by simp [Pool.execTask, ht])
        · simp only [Bool.not_eq_true] at ht
          exact all_approve h hv hcn hq ht rfl
  | user ans =>
    simp only [Pool.step] at hs
    split at hs
    · cases hs
    · rename_i c b us hq
      cases hs
      have hcn : c < r.pool.n := h.life.v2.v1.base.uvalid ⟨c, b⟩ (by rw [hq]; simp)
      refine all_user h hv hcn hq ?_ ?_ ?_ ?_
      · split
        · split <;> simp [Pool.post, Pool.setConn]
        · simp [Pool.setConn]
      · split
        · split <;> rfl
        · rfl
      · split
        · split
          · exact grow_post (grow_same rfl rfl) ⟨_, rfl⟩
          · exact grow_same rfl rfl
        · exact grow_same rfl rfl
      · intro d hd; split
        · split <;> simp [Pool.post, Pool.setConn, Pool.upd_ne _ _ hd]
        · simp [Pool.setConn, Pool.upd_ne _ _ hd]
  | readable c =>
    simp only [Pool.step] at hs
    split at hs
    · rename_i hg
      cases hs
      refine all_sockEv (c := c) h hv hg.1 hg.2.1 (by simp) (by simp) ?_ ?_ ?_ ?_ rfl (by simp [event]) rfl
      · split
        · exact ⟨by simp [Pool.setConn], by simp [Pool.setConn], by simp [Pool.setConn], by simp [Pool.setConn],
            by simp [Pool.setConn], by simp [Pool.setConn]⟩
        · exact ⟨rfl, rfl, rfl, rfl, rfl, rfl⟩
      · split <;> exact grow_same rfl rfl
      · split <;> rfl
      · intro d hd; split
        · simp [Pool.setConn, Pool.upd_ne _ _ hd]
        · rfl
    · cases hs
  | writable c =>
    simp only [Pool.step] at hs
    split at hs
    · rename_i hg
      cases hs
      refine all_sockEv (c := c) h hv hg.1 hg.2.1 (by simp) (by simp) ?_ (grow_same rfl rfl) rfl ?_ rfl (by simp [event]) rfl
      · exact ⟨by simp [Pool.setConn], by simp [Pool.setConn], by simp [Pool.setConn], by simp [Pool.setConn],
          by simp [Pool.setConn], by simp [Pool.setConn]⟩
      · intro d hd; simp [Pool.setConn, Pool.upd_ne _ _ hd]
    · cases hs
  | hsDone c =>
    simp only [Pool.step] at hs
    split at hs
    · rename_i hg
      cases hs
      exact all_hs h hv hg.1 hg.2.1 hg.2.2.2 rfl
    · cases hs
  | ioError c =>
    simp only [Pool.step] at hs
    split at hs
    · rename_i hg
      cases hs
      exact all_sockEv (c := c) h hv hg.1 hg.2.1 (by simp) (by simp) (keeps_wt _ _) (grow_wt (grow_same rfl rfl) (fun _ => rfl))
        (wt_n _ _) (fun d hd => wt_conn_ne _ hd) rfl (by simp [event]) rfl
    · cases hs
  | sendBuf c =>
    simp only [Pool.step] at hs
    split at hs
    · rename_i hg
      cases hs
      refine all_sockEv (c := c) h hv hg.1 hg.2.1 (by simp) (by simp) ?_ (grow_same rfl rfl) rfl ?_ rfl (by simp [event]) rfl
      · exact ⟨by simp [Pool.setConn], by simp [Pool.setConn], by simp [Pool.setConn], by simp [Pool.setConn],
          by simp [Pool.setConn], by simp [Pool.setConn]⟩
      · intro d hd; simp [Pool.setConn, Pool.upd_ne _ _ hd]
    · cases hs

/-- An action of the user that leaves the pool alone. -/
theorem all_own {g : Cfg} {r r' : St} {e : Ev} (h : All g r) (c : Nat) (hc : c < r.pool.n) (hl : r'.log = r.log ++ [e]) (hp : r'.pool = r.pool)
    (h1 : r'.tq = r.tq) (h2 : r'.tu = r.tu) (hb : r'.born = r.born) (hh : ∀ d, d ≠ c → r'.held d = r.held d)
    (he : OnlyConn c e) (hself : RI g.tls c (r.log ++ [e]) (data r' c) ∧ SafeC c r.log e) : All g r' := by
  refine ⟨by rw [hp]; exact h.life, fun w => by rw [h1, hp]; exact h.tq w, by rw [h2, hp]; exact h.tu, fun d hd => ?_, fun x i hx => ?_,
    fun d hd => ?_, ?_⟩
  · rw [hl]
    by_cases e1 : d = c
    · subst e1; exact hself.1
    · rw [hp] at hd
      refine (k_nothing (h.ri d hd) ⟨fun l hl => ?_, fun l hl => ?_⟩ ⟨?_, ?_, ?_, ?_, ?_, ?_, ?_, ?_⟩ ?_ ?_ ?_ ?_).1
      · exact absurd (he _ (.inl hl)) e1
      · exact absurd (he _ (.inr hl)) e1
      all_goals simp [data, hp, h1, h2, hb, hh d e1]
  · rw [hl] at hx; rw [hp]
    rcases acc_append.1 hx with h1 | ⟨_, h1⟩
    · exact h.acc x i h1
    · rw [he x h1]; exact hc
  · rw [hp] at hd
    rw [hh d (by omega)]; exact h.held d hd
  · rw [hl]
    refine raceFree_append h.free fun x i => ?_
    obtain ⟨y, l⟩ := x
    constructor
    · intro h1 h2
      obtain rfl : y = c := he _ (.inr h1)
      exact (hself.2 l i).1 h1 h2
    · intro h1 h2
      obtain rfl : y = c := he _ (.inl h1)
      exact (hself.2 l i).2 h1 h2

/-- After `stop` everything that was done happens before what the user's thread does. -/
structure Done (r : St) : Prop where
  stopped : r.stopped = true
  free : RaceFree r.log
  sees : ∀ x i, Acc r.log x i → Sees r.log .user i

theorem done_user {r r' : St} {e : Ev} (h : Done r) (hs : r'.stopped = true) (hl : r'.log = r.log ++ [e])
    (ht : e.thread = .user ∨ (e.reads = [] ∧ e.writes = [])) : Done r' := by
  refine ⟨hs, ?_, fun x i hx => ?_⟩
  · rw [hl]
    refine raceFree_append h.free fun x i => ?_
    rcases ht with ht | ⟨h1, h2⟩
    · exact ⟨fun _ ha => hbn_sees (by rw [ht]; exact h.sees x i ha), fun _ ha => hbn_sees (by rw [ht]; exact h.sees x i (wr_acc ha))⟩
    · simp [h1, h2]
  · rw [hl] at hx ⊢
    rcases acc_append.1 hx with h1 | ⟨rfl, h1⟩
    · exact sees_append (h.sees x i h1)
    · rcases ht with ht | ⟨h2, h3⟩
      · rw [← ht]; exact sees_new
      · simp [h2, h3] at h1

def Good (g : Cfg) (r : St) : Prop := (r.stopped = false ∧ All g r) ∨ Done r

theorem acc_lt {L : List Ev} {x : Nat × Loc} {i : Nat} (h : Acc L x i) : i < L.length := by
  obtain ⟨a, h1, _⟩ := h; exact get_lt h1

theorem good_free {g : Cfg} {r : St} (h : Good g r) : RaceFree r.log := by
  rcases h with ⟨_, h⟩ | h
  · exact h.free
  · exact h.free

theorem good_step {g : Cfg} {r r' : St} {a : Act} (h : Good g r) (hs : step g r a = some r')
    (h1 : ∀ c, a = .pool (.connReady c) → .dterm c ∉ r.pool.wq 0)
    (h2 : ∀ c, a = .getCert c → g.tls = false ∨ (r.pool.conn c).cbs ≠ []) : Good g r' := by
  cases a with
  | pool a =>
    simp only [step] at hs
    split at hs
    · rename_i hm
      obtain ⟨s', e, rfl⟩ := Option.map_eq_some_iff.1 hs
      rcases h with ⟨hst, h⟩ | h
      · exact .inl ⟨hst, all_pool h e (fun c hc => h1 c (by rw [hc]))⟩
      · refine .inr (done_user (e := event g r r.log.length a) h h.stopped rfl ?_)
        cases a with
        | user b =>
          left; simp only [event]; split <;> rfl
        | terminate c => right; exact ⟨rfl, rfl⟩
        | _ => simp [mayRun, h.stopped] at hm
    · cases hs
  | sync c =>
    simp only [step] at hs
    split at hs
    · rename_i hg
      cases hs
      rcases h with ⟨hst, h⟩ | h
      · refine .inl ⟨hst, all_own (e := { thread := .user, waited := some (r.born c) }) h c hg.1 rfl rfl rfl rfl rfl
          (fun d hd => Pool.upd_ne _ _ hd) (by rintro x (hx | hx) <;> simp at hx) ?_⟩
        refine k_sync (h.ri c hg.1) ⟨by simp, by simp⟩ rfl rfl rfl rfl rfl rfl rfl rfl ?_ rfl ?_ ?_ ?_ ?_
        · simp [data]
        · exact fun _ _ h => h
        · exact fun _ h => h
        · exact fun _ h => h
        · exact fun _ h => h
      · exact .inr (done_user h h.stopped rfl (.inl rfl))
    · cases hs
  | getInfo c =>
    simp only [step] at hs
    split at hs
    · rename_i hg
      cases hs
      rcases h with ⟨hst, h⟩ | h
      · refine .inl ⟨hst, all_own (e := { thread := .user, reads := [(c, .info)] }) h c hg.1 rfl rfl rfl rfl rfl
          (fun d hd => rfl) (by rintro x (hx | hx) <;> simp at hx; rw [hx]) ?_⟩
        refine k_getInfo (h.ri c hg.1) ⟨by simp, by simp⟩ rfl ?_ ⟨rfl, rfl, rfl, rfl, rfl, rfl, rfl, rfl⟩ ?_ ?_ ?_ ?_
        · have := hg.2; simp only [has, Bool.or_eq_true] at this; exact this
        · exact fun _ _ h => h
        · exact fun _ h => h
        · exact fun _ h => h
        · exact fun _ h => h
      · exact .inr (done_user h h.stopped rfl (.inl rfl))
    · cases hs
  | getCert c =>
    simp only [step] at hs
    split at hs
    · rename_i hg
      cases hs
      rcases h with ⟨hst, h⟩ | h
      · refine .inl ⟨hst, all_own (e := { thread := .user, reads := [(c, .cert)] }) h c hg.1 rfl rfl rfl rfl rfl
          (fun d hd => rfl) (by rintro x (hx | hx) <;> simp at hx; rw [hx]) ?_⟩
        refine k_getCert (h.ri c hg.1) ⟨by simp, by simp⟩ rfl ?_ ?_ ⟨rfl, rfl, rfl, rfl, rfl, rfl, rfl, rfl⟩ ?_ ?_ ?_ ?_
        · have := hg.2; simp only [has, Bool.or_eq_true] at this
          rcases h2 c rfl with ht | ht
          · rcases this with h3 | h3
            · exact .inr ⟨h3, ht⟩
            · exact .inl h3
          · left; simp [data, ht]
        · intro ht
          have := Pool.told_fed h.life hg.1 (by simpa [data] using ht)
          simpa [data] using this
        · exact fun _ _ h => h
        · exact fun _ h => h
        · exact fun _ h => h
        · exact fun _ h => h
      · exact .inr (done_user h h.stopped rfl (.inl rfl))
    · cases hs
  | stop =>
    simp only [step] at hs
    split at hs
    · cases hs
    · rename_i hg
      cases hs
      rcases h with ⟨hst, h⟩ | h
      · right
        have hb : ∀ x i, Acc r.log x i → Hbn r.log (stopEvent r) i := fun x i ha => .inr (.inr ⟨rfl, acc_lt ha⟩)
        refine ⟨rfl, ?_, fun x i hx => ?_⟩
        · exact raceFree_append h.free fun x i => ⟨fun _ ha => hb x i ha, fun _ ha => hb x i (wr_acc ha)⟩
        · rcases acc_append.1 hx with h1 | ⟨rfl, _⟩
          · exact sees_hbn (e := stopEvent r) (hb x i h1)
          · exact sees_new (e := stopEvent r)
      · exact absurd h.stopped hg

theorem good_run {g : Cfg} : ∀ (as : List Act) (r r' : St), Good g r →
    (∀ p ∈ trace g r as, (∀ c, p.2 = .pool (.connReady c) → .dterm c ∉ p.1.pool.wq 0) ∧
      (∀ c, p.2 = .getCert c → g.tls = false ∨ (p.1.pool.conn c).cbs ≠ [])) → run g r as = some r' → Good g r' := by
  intro as
  induction as with
  | nil => intro r r' hi _ h; cases h; exact hi
  | cons a as ih =>
    intro r r' hi hc h
    simp only [run] at h
    rcases e : step g r a with _ | r1
    · rw [e] at h; cases h
    · rw [e] at h
      simp only [trace, e] at hc
      have h0 := hc (r, a) (by simp)
      exact ih r1 r' (good_step hi e h0.1 h0.2) (fun p hp => hc p (List.mem_cons_of_mem _ hp)) h

/-- A set of events closed under direct precedence contains everything that happens after its members. -/
theorem hb_closed {L : List Ev} (S : Nat → Bool) (hS : ∀ i j, Edge L i j → S i = true → S j = true) {i j : Nat} (h : HB L i j) :
    S i = true → S j = true := by
  induction h with
  | edge h => exact hS _ _ h
  | trans _ _ h1 h2 => exact fun h => h2 (h1 h)

/-- What the order of events depends on. -/
def shape (L : List Ev) : List (Thread × Option Nat × Bool) := L.map (fun e => (e.thread, e.waited, e.joined))
def edgeS (M : List (Thread × Option Nat × Bool)) (i j : Nat) : Bool :=
  match M[i]?, M[j]? with
  | some a, some b => a.1 == b.1 || b.2.1 == some i || b.2.2
  | _, _ => false

theorem closed_shape {L : List Ev} {S : Nat → Bool} {M : List (Thread × Option Nat × Bool)} (hM : shape L = M)
    (h : (List.range M.length).all (fun j => (List.range j).all (fun i => !(edgeS M i j && S i) || S j)) = true) :
    ∀ i j, Edge L i j → S i = true → S j = true := by
  rintro i j ⟨hij, a, b, h1, h2, h3⟩ hi
  simp only [List.all_eq_true, List.mem_range] at h
  have := h j (by rw [← hM, shape, List.length_map]; exact get_lt h2) i hij
  have he : edgeS M i j = true := by
    simp only [edgeS, ← hM, shape, List.getElem?_map, h1, h2, Option.map_some]
    rcases h3 with h3 | h3 | h3 <;> simp [h3]
  simpa [he, hi] using this

end Races
end Salticidae
