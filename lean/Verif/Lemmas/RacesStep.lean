import Verif.Lemmas.RacesPool
namespace Salticidae
namespace Races
open Spec.Races
open Pool (Cfg Task Upd)

theorem wt_conn_ne (s : Pool.St) {c d : Nat} (h : d ≠ c) : (Pool.workerTerminate s c).conn d = s.conn d := by
  unfold Pool.workerTerminate; split <;> simp [Pool.post, Pool.setConn, Pool.upd_ne _ _ h]
theorem dt_conn_ne (s : Pool.St) {c d : Nat} (h : d ≠ c) : (Pool.dispTerminate s c).conn d = s.conn d := by
  unfold Pool.dispTerminate; split
  · exact wt_conn_ne s h
  · simp [Pool.post, Pool.setConn, Pool.upd_ne _ _ h]
theorem wt_n (s : Pool.St) (c : Nat) : (Pool.workerTerminate s c).n = s.n := by
  unfold Pool.workerTerminate; split <;> rfl
theorem dt_n (s : Pool.St) (c : Nat) : (Pool.dispTerminate s c).n = s.n := by
  unfold Pool.dispTerminate; split
  · exact wt_n s c
  · rfl
theorem wt_conn (s : Pool.St) (c : Nat) : ∃ b, (Pool.workerTerminate s c).conn c = { s.conn c with asked := b } := by
  unfold Pool.workerTerminate; split
  · exact ⟨true, by simp [Pool.post, Pool.setConn]⟩
  · exact ⟨(s.conn c).asked, rfl⟩
theorem dt_conn (s : Pool.St) (c : Nat) : ∃ b, (Pool.dispTerminate s c).conn c = { s.conn c with asked := b } := by
  unfold Pool.dispTerminate; split
  · exact wt_conn s c
  · exact ⟨true, by simp [Pool.post, Pool.setConn]⟩

/-- The record of `c` is the same as far as `data` goes. -/
structure Keeps (x y : Pool.Conn) : Prop where
  worker : x.worker = y.worker
  fed : x.fed = y.fed
  term : x.term = y.term
  closed : x.closed = y.closed
  handshake : x.handshake = y.handshake
  cbs : x.cbs = y.cbs

theorem same_of {g : Cfg} {r : St} {a : Pool.Act} {s' : Pool.St} {c : Nat} (h : Keeps (s'.conn c) (r.pool.conn c)) (hn : s'.n = r.pool.n) :
    Same (data (next g r a s') c) (data r c) := by
  obtain ⟨h1, h2, h3, h4, h5, h6⟩ := h
  exact ⟨h1, h2, h3, by simp [data, next, h4], h5, by simp [data, next, h6], rfl, by simp [data, next, hn]⟩

theorem keeps_dt (s : Pool.St) (c : Nat) : Keeps ((Pool.dispTerminate s c).conn c) (s.conn c) := by
  obtain ⟨b, h⟩ := dt_conn s c
  rw [h]; exact ⟨rfl, rfl, rfl, rfl, rfl, rfl⟩
theorem keeps_wt (s : Pool.St) (c : Nat) : Keeps ((Pool.workerTerminate s c).conn c) (s.conn c) := by
  obtain ⟨b, h⟩ := wt_conn s c
  rw [h]; exact ⟨rfl, rfl, rfl, rfl, rfl, rfl⟩
theorem keeps_trans {x y z : Pool.Conn} (h : Keeps x y) (h' : Keeps y z) : Keeps x z :=
  ⟨h.1.trans h'.1, h.2.trans h'.2, h.3.trans h'.3, h.4.trans h'.4, h.5.trans h'.5, h.6.trans h'.6⟩

section
variable {g : Cfg} {r : St} {s' : Pool.St}

theorem all_sockEv (h : All g r) (hv : Pool.ConnLife g s') {a : Pool.Act} {c : Nat} (hc : c < r.pool.n) (hs : (r.pool.conn c).sock = true)
    (h1 : ∀ w f, a ≠ .exec w f) (h2 : ∀ b, a ≠ .user b) (hk : Keeps (s'.conn c) (r.pool.conn c))
    (hg : Grow r.pool s' (fun _ t => t = .wterm c) (fun _ => False)) (hn : s'.n = r.pool.n)
    (hconn : ∀ d, d ≠ c → s'.conn d = r.pool.conn d)
    (ht : (event g r r.log.length a).thread = sockThread r.pool c r.log.length)
    (hr : ∀ x ∈ (event g r r.log.length a).reads, x = (c, .info) ∨ x = (c, .worker))
    (hw : (event g r r.log.length a).writes = [(c, .sock)]) :
    All g (next g r a s') := by
  obtain ⟨w, f1, f2, f3, f4, f5, f6⟩ := Pool.sock_facts h.life hc hs
  refine wrap h hv (popped_other h h1 h2) hg (by rintro w t rfl; rfl) (by simp) hconn hn hc ?_ ?_
  · rintro x (hx | hx)
    · rcases hr x hx with rfl | rfl <;> rfl
    · rw [hw] at hx; simp at hx; rw [hx]
  · intro k1 k2 k3
    have mem : ∀ w t p, (t, p) ∈ r.tq w → t ∈ r.pool.wq w := by
      intro w t p hm; rw [← h.tq w]; exact List.mem_map.2 ⟨_, hm, rfl⟩
    refine k_sock (h.ri c hc) ⟨fun l hl => ?_, fun l hl => ?_⟩ w ?_ f1 f2 f3 ?_ ?_ (same_of hk hn) ?_ ?_ ?_ ?_
    · rcases hr _ hl with e | e <;> simp at e <;> simp [e]
    · rw [hw] at hl; simpa using hl
    · rw [ht]; simp [sockThread, f1]
    · intro w p hm; exact f4 w (mem _ _ _ hm)
    · intro p hm; exact f5 (mem _ _ _ hm)
    · intro w p hm
      rcases k1 _ _ _ hm with h | ⟨_, h⟩
      · exact left_sub h
      · cases h
    · intro p hm
      rcases k1 _ _ _ hm with h | ⟨_, h⟩
      · exact left_sub h
      · cases h
    · intro p hm
      rcases k1 _ _ _ hm with h | ⟨_, h⟩
      · exact left_sub h
      · cases h
    · rintro p ⟨b, hm⟩
      rcases k2 _ _ hm with h | ⟨_, h⟩
      · exact ⟨b, leftU_sub h⟩
      · exact h.elim

/-- Events of the dispatcher that only look. -/
theorem all_dispEv (h : All g r) (hv : Pool.ConnLife g s') {a : Pool.Act} {c : Nat} {s0 : Pool.St} (hp : Popped r a s0) (hc : c < r.pool.n)
    (hk : Keeps (s'.conn c) (r.pool.conn c))
    (hg : Grow s0 s' (fun _ t => t = .wterm c ∨ t = .dterm c ∨ t = .userTerm c) (fun _ => False)) (hn : s'.n = r.pool.n)
    (hconn : ∀ d, d ≠ c → s'.conn d = r.pool.conn d)
    (ht : (event g r r.log.length a).thread = .w 0 ∨ ((event g r r.log.length a).reads = [] ∧ (event g r r.log.length a).writes = []))
    (hr : ∀ x ∈ (event g r r.log.length a).reads, x = (c, .info) ∨ x = (c, .worker))
    (hw : ∀ x ∈ (event g r r.log.length a).writes, x = (c, .evconn)) :
    All g (next g r a s') := by
  refine wrap h hv hp hg (by rintro w t (rfl | rfl | rfl) <;> rfl) (by simp) hconn hn hc ?_ ?_
  · rintro x (hx | hx)
    · rcases hr x hx with rfl | rfl <;> rfl
    · rw [hw x hx]
  · intro k1 k2 k3
    have f1 : ∀ w p, (data (next g r a s') c).feedT w p → (data r c).feedT w p := by
      intro w p hm
      rcases k1 _ _ _ hm with h | ⟨_, h⟩
      · exact left_sub h
      · simp at h
    have f2 : ∀ p, (data (next g r a s') c).setupT p → (data r c).setupT p := by
      intro p hm
      rcases k1 _ _ _ hm with h | ⟨_, h⟩
      · exact left_sub h
      · simp at h
    have f3 : ∀ p, (data (next g r a s') c).delT p → (data r c).delT p := by
      intro p hm
      rcases k1 _ _ _ hm with h | ⟨_, h⟩
      · exact left_sub h
      · simp at h
    have f4 : ∀ p, (data (next g r a s') c).updT p → (data r c).updT p := by
      rintro p ⟨b, hm⟩
      rcases k2 _ _ hm with h | ⟨_, h⟩
      · exact ⟨b, leftU_sub h⟩
      · exact h.elim
    rcases ht with ht | ⟨ht1, ht2⟩
    · refine k_disp (h.ri c hc) ⟨fun l hl => ?_, fun l hl => ?_⟩ ht (same_of hk hn) f1 f2 f3 f4
      · rcases hr _ hl with e | e <;> simp at e <;> simp [e]
      · have := hw _ hl; simp at this; simp [this]
    · exact k_nothing (h.ri c hc) ⟨by simp [ht1], by simp [ht2]⟩ (same_of hk hn) f1 f2 f3 f4

theorem mem_tq (h : All g r) {w p : Nat} {t : Task} (hm : (t, p) ∈ r.tq w) : t ∈ r.pool.wq w := by
  rw [← h.tq w]; exact List.mem_map.2 ⟨_, hm, rfl⟩
theorem mem_tu (h : All g r) {p : Nat} {u : Upd} (hm : (u, p) ∈ r.tu) : u ∈ r.pool.uq := by
  rw [← h.tu]; exact List.mem_map.2 ⟨_, hm, rfl⟩

theorem all_ready (h : All g r) (hv : Pool.ConnLife g s') {c w : Nat} (hc : c < r.pool.n) (hev : (r.pool.conn c).evConn = true)
    (hs : s' = Pool.post (Pool.setConn r.pool c { r.pool.conn c with evConn := false, worker := some w }) w (.feed c)) :
    All g (next g r (.connReady c) s') := by
  obtain ⟨q1, q2, q3, q4⟩ := Pool.ready_quiet h.life hc hev
  have hx : s'.conn c = { r.pool.conn c with evConn := false, worker := some w } := by subst hs; simp [Pool.post, Pool.setConn]
  have hn : s'.n = r.pool.n := by subst hs; rfl
  refine wrap (N := fun _ t => t = .feed c) (U := fun _ => False) h hv (popped_other h (by simp) (by simp)) ?_ (by rintro w t rfl; rfl)
    (by simp) ?_ hn hc ?_ ?_
  · subst hs; exact grow_post (grow_same rfl rfl) rfl
  · intro d hd; subst hs; simp [Pool.post, Pool.setConn, Pool.upd_ne _ _ hd]
  · rintro ⟨x, l⟩ hx; simp [event] at hx; grind
  · intro k1 k2 k3
    refine k_ready (h.ri c hc) ⟨fun l hl => ?_, fun l hl => ?_⟩ w rfl q1 q2 ?_ ?_ ?_ ?_ ?_ ?_ ?_ ?_ ?_ ?_ ?_ ?_ ?_ ?_
    · simpa [event] using hl
    · simpa [event] using hl
    · simp [data, q3]
    · rintro p ⟨b, hm⟩; exact q4 b (mem_tu h hm)
    · simp [data, next, hx]
    · simp [data, next, hx]
    · simp [data, next, hx]
    · simp [data, next, hx]
    · simp [data, next, hx]
    · simp [data, next, hx]
    · simp [data, next]
    · simp [data, next, hn]
    · intro w p hm
      rcases k1 _ _ _ hm with h' | ⟨h', _⟩
      · exact absurd (mem_tq h (left_sub h')) (Pool.noneNoFeed h.life hc q1 w)
      · exact h'
    · intro p hm
      rcases k1 _ _ _ hm with h' | ⟨_, h'⟩
      · exact left_sub h'
      · cases h'
    · intro p hm
      rcases k1 _ _ _ hm with h' | ⟨_, h'⟩
      · exact left_sub h'
      · cases h'
    · rintro p ⟨b, hm⟩
      rcases k2 _ _ hm with h' | ⟨_, h'⟩
      · exact ⟨b, leftU_sub h'⟩
      · exact h'.elim

theorem all_feed (h : All g r) (hv : Pool.ConnLife g s') {c w : Nat} {fail : Bool} {ts : List Task} (hc : c < r.pool.n)
    (hq : r.pool.wq w = .feed c :: ts)
    (hs : s' = Pool.feed g.tls { r.pool with wq := Pool.upd r.pool.wq w ts } c w) :
    All g (next g r (.exec w fail) s') := by
  obtain ⟨p, tl, htq⟩ := head_tag ((h.tq w).trans hq)
  obtain ⟨a1, a2, a3⟩ := Pool.feed_facts (h.life.v2.v1.v1 c hc) (h.life.v2.v2 c hc)
    ((Pool.mem_view h.life hc rfl).2 (by rw [hq]; simp : Task.feed c ∈ r.pool.wq w))
  have b1 : (r.pool.conn c).worker = some w := a1
  have b2 : (r.pool.conn c).fed = false := a2
  have b3 : (r.pool.conn c).term = false := a3
  have hx : (s'.conn c).worker = (r.pool.conn c).worker ∧ (s'.conn c).fed = true ∧ (s'.conn c).term = (r.pool.conn c).term ∧
      (s'.conn c).closed = (r.pool.conn c).closed ∧ (s'.conn c).cbs = (r.pool.conn c).cbs := by
    subst hs; simp only [Pool.feed]; split <;> simp [Pool.post, Pool.setConn]
  obtain ⟨x1, x2, x3, x4, x5⟩ := hx
  have hn : s'.n = r.pool.n := by subst hs; simp only [Pool.feed]; split <;> rfl
  refine wrap (N := fun w t => w = 0 ∧ t = .setup c) (U := fun _ => False) h hv (popped_exec h hq) ?_ (by rintro w t ⟨_, rfl⟩; rfl)
    (by simp) ?_ hn hc ?_ ?_
  · subst hs; simp only [Pool.feed]; split
    · exact grow_same rfl rfl
    · exact grow_post (grow_same rfl rfl) ⟨rfl, rfl⟩
  · intro d hd; subst hs; simp only [Pool.feed]; split <;> simp [Pool.post, Pool.setConn, Pool.upd_ne _ _ hd]
  · rintro ⟨x, l⟩ hx; simp [event, htq, taskReads, taskWrites] at hx; grind
  · intro k1 k2 k3
    refine k_feed (h.ri c hc) ⟨fun l hl => ?_, fun l hl => ?_⟩ w p ?_ ?_ ?_ b1 b2 ?_ x1 x2 x3 ?_ ?_ ?_ ?_ ?_ ?_ ?_ ?_
    · simpa [event, htq, taskReads] using hl
    · simpa [event, htq, taskWrites] using hl
    · simp [event, htq]
    · simp [event, htq]
    · show (Task.feed c, p) ∈ r.tq w; rw [htq]; simp
    · intro p hm; exact (Pool.noDel h.life hc b3).1 (mem_tq h hm)
    · simp [data, next, x4]
    · simp [data, next, x5]
    · simp [data, next]
    · simp [data, next, hn]
    · intro w p hm
      exact Pool.fed_noFeed hv (by rw [hn]; exact hc) x2 w (k3 _ _ _ hm)
    · intro p hm
      rcases k1 _ _ _ hm with h' | ⟨h', _⟩
      · exact .inl (left_sub h')
      · exact .inr h'
    · intro p hm
      rcases k1 _ _ _ hm with h' | ⟨_, _, h'⟩
      · exact left_sub h'
      · cases h'
    · rintro p ⟨b, hm⟩
      rcases k2 _ _ hm with h' | ⟨_, h'⟩
      · exact ⟨b, leftU_sub h'⟩
      · exact h'.elim

theorem all_setup (h : All g r) (hv : Pool.ConnLife g s') {c w : Nat} {fail : Bool} {ts : List Task} (hc : c < r.pool.n)
    (hq : r.pool.wq w = .setup c :: ts)
    (hs : s' = Pool.execTask g { r.pool with wq := Pool.upd r.pool.wq w ts } w fail (.setup c)) :
    All g (next g r (.exec w fail) s') := by
  obtain ⟨p, tl, htq⟩ := head_tag ((h.tq w).trans hq)
  have hm : Task.setup c ∈ r.pool.wq w := by rw [hq]; simp
  obtain rfl : w = 0 := (h.life.v2.v1.v1 c hc).set0 w ((Pool.mem_view h.life hc rfl).2 hm)
  obtain ⟨b1, b2, b3⟩ := Pool.setup_fed h.life hc hm
  have hk : Keeps (s'.conn c) (r.pool.conn c) := by
    subst hs; simp only [Pool.execTask]; split
    · exact keeps_trans (keeps_dt _ _) ⟨by simp [Pool.setConn], by simp [Pool.setConn], by simp [Pool.setConn], by simp [Pool.setConn],
        by simp [Pool.setConn], by simp [Pool.setConn]⟩
    · exact ⟨by simp [Pool.setConn], by simp [Pool.setConn], by simp [Pool.setConn], by simp [Pool.setConn],
        by simp [Pool.setConn], by simp [Pool.setConn]⟩
  have hn : s'.n = r.pool.n := by
    subst hs; simp only [Pool.execTask]; split
    · rw [dt_n]; rfl
    · rfl
  refine wrap (N := fun _ t => t = .wterm c ∨ t = .dterm c) (U := fun u => u = ⟨c, true⟩) h hv (popped_exec h hq) ?_
    (by rintro w t (rfl | rfl) <;> rfl) (by rintro u rfl; rfl) ?_ hn hc ?_ ?_
  · subst hs; simp only [Pool.execTask]; split
    · exact grow_dt (grow_same rfl rfl) (fun _ => .inl rfl) (fun _ => .inr rfl)
    · exact grow_rep (grow_same rfl rfl) rfl
  · intro d hd; subst hs; simp only [Pool.execTask]; split
    · rw [dt_conn_ne _ hd]; simp [Pool.setConn, Pool.upd_ne _ _ hd]
    · simp [Pool.setConn, Pool.upd_ne _ _ hd]
  · rintro ⟨x, l⟩ hx; simp [event, htq, taskReads, taskWrites] at hx; grind
  · intro k1 k2 k3
    obtain ⟨s1, s2, s3, s4, s5, s6, s7, s8⟩ := same_of (g := g) (a := .exec 0 fail) hk hn
    refine k_setup (h.ri c hc) ⟨fun l hl => ?_, fun l hl => ?_⟩ p ?_ ?_ ?_ b1 b2 b3 s1 s2 s3 s4 s5 s6 s7 s8 ?_ ?_ ?_ ?_
    · simp [event, htq, taskReads] at hl; simp; grind
    · simp [event, htq, taskWrites] at hl
    · simp [event, htq]
    · simp [event, htq]
    · show (Task.setup c, p) ∈ r.tq 0; rw [htq]; simp
    · intro w p hm
      rcases k1 _ _ _ hm with h' | ⟨_, h'⟩
      · exact left_sub h'
      · simp at h'
    · intro p hm
      rcases k1 _ _ _ hm with h' | ⟨_, h'⟩
      · exact left_sub h'
      · simp at h'
    · intro p hm
      rcases k1 _ _ _ hm with h' | ⟨_, h'⟩
      · exact left_sub h'
      · simp at h'
    · rintro p ⟨b, hm⟩
      rcases k2 _ _ hm with h' | ⟨h', _⟩
      · exact .inl ⟨b, leftU_sub h'⟩
      · exact .inr h'

theorem all_wterm (h : All g r) (hv : Pool.ConnLife g s') {c w : Nat} {fail : Bool} {ts : List Task} (hc : c < r.pool.n)
    (hq : r.pool.wq w = .wterm c :: ts) (ht : (r.pool.conn c).term = false)
    (hs : s' = Pool.post (Pool.workerTeardown { r.pool with wq := Pool.upd r.pool.wq w ts } c) 0 (.del c)) :
    All g (next g r (.exec w fail) s') := by
  obtain ⟨p, tl, htq⟩ := head_tag ((h.tq w).trans hq)
  obtain ⟨b1, b2⟩ := Pool.wterm_head h.life hc hq
  have hx : s'.conn c = { r.pool.conn c with term := true, sock := false, armed := false, sendOn := false, wDown := (r.pool.conn c).wDown + 1 } := by
    subst hs; simp [Pool.workerTeardown, Pool.post, Pool.setConn]
  have hn : s'.n = r.pool.n := by subst hs; rfl
  refine wrap (N := fun _ t => t = .del c) (U := fun _ => False) h hv (popped_exec h hq) ?_
    (by rintro w t rfl; rfl) (by simp) ?_ hn hc ?_ ?_
  · subst hs; exact grow_post (grow_same rfl rfl) rfl
  · intro d hd; subst hs; simp [Pool.workerTeardown, Pool.post, Pool.setConn, Pool.upd_ne _ _ hd]
  · rintro ⟨x, l⟩ hx; simp [event, htq, taskReads, taskWrites, ht] at hx; grind
  · intro k1 k2 k3
    refine k_wterm (h.ri c hc) ⟨fun l hl => ?_, fun l hl => ?_⟩ w ?_ b1 b2 ht ?_ ?_ ?_ ?_ ?_ ?_ ?_ ?_ ?_ ?_ ?_ ?_ ?_
    · simp [event, htq, taskReads, ht] at hl; simp; grind
    · simpa [event, htq, taskWrites, ht] using hl
    · simp [event, htq]
    · intro w p hm; exact Pool.fed_noFeed h.life hc b2 w (mem_tq h hm)
    · simp [data, next, hx]
    · simp [data, next, hx]
    · simp [data, next, hx]
    · simp [data, next, hx]
    · simp [data, next, hx]
    · simp [data, next, hx]
    · simp [data, next]
    · simp [data, next, hn]
    · intro w p hm
      rcases k1 _ _ _ hm with h' | ⟨_, h'⟩
      · exact left_sub h'
      · cases h'
    · intro p hm
      rcases k1 _ _ _ hm with h' | ⟨_, h'⟩
      · exact left_sub h'
      · cases h'
    · intro p hm
      rcases k1 _ _ _ hm with h' | ⟨h', _⟩
      · exact absurd (mem_tq h (left_sub h')) (Pool.noDel h.life hc ht).1
      · exact h'
    · rintro p ⟨b, hm⟩
      rcases k2 _ _ hm with h' | ⟨_, h'⟩
      · exact ⟨b, leftU_sub h'⟩
      · exact h'.elim

theorem all_dterm (h : All g r) (hv : Pool.ConnLife g s') {c w : Nat} {fail : Bool} {ts : List Task} (hc : c < r.pool.n)
    (hq : r.pool.wq w = .dterm c :: ts) (ht : (r.pool.conn c).term = false)
    (hs : s' = Pool.delConn (Pool.workerTeardown { r.pool with wq := Pool.upd r.pool.wq w ts } c) c) :
    All g (next g r (.exec w fail) s') := by
  obtain ⟨p, tl, htq⟩ := head_tag ((h.tq w).trans hq)
  obtain ⟨b1, rfl, b2, b3⟩ := Pool.dterm_none h.life hc (by rw [hq]; simp : Task.dterm c ∈ r.pool.wq w)
  have hx : (s'.conn c).worker = (r.pool.conn c).worker ∧ (s'.conn c).fed = (r.pool.conn c).fed ∧ (s'.conn c).term = true ∧
      (s'.conn c).closed = (r.pool.conn c).closed + 1 ∧ (s'.conn c).handshake = (r.pool.conn c).handshake ∧
      (s'.conn c).cbs = (r.pool.conn c).cbs := by
    subst hs; simp [Pool.workerTeardown, Pool.delConn, Pool.releaseConn, Pool.setConn]
  obtain ⟨x1, x2, x3, x4, x5, x6⟩ := hx
  have hn : s'.n = r.pool.n := by subst hs; rfl
  refine wrap (N := fun _ _ => False) (U := fun u => u = ⟨c, false⟩) h hv (popped_exec h hq) ?_
    (by simp) (by rintro u rfl; rfl) ?_ hn hc ?_ ?_
  · subst hs; exact grow_del (grow_same rfl rfl) rfl
  · intro d hd; subst hs; simp [Pool.workerTeardown, Pool.delConn, Pool.releaseConn, Pool.setConn, Pool.upd_ne _ _ hd]
  · rintro ⟨x, l⟩ hx; simp [event, htq, taskReads, taskWrites, ht] at hx; grind
  · intro k1 k2 k3
    refine k_dterm (h.ri c hc) ⟨fun l hl => ?_, fun l hl => ?_⟩ ?_ b1 b2 ?_ ?_ x1 x2 x3 ?_ x5 ?_ ?_ ?_ ?_ ?_ ?_ ?_
    · simp [event, htq, taskReads, ht] at hl; simp; grind
    · simpa [event, htq, taskWrites, ht] using hl
    · simp [event, htq]
    · intro w p hm; exact Pool.noneNoFeed h.life hc b1 w (mem_tq h hm)
    · intro p hm; exact b3 (mem_tq h hm)
    · simp [data, next, x4]
    · simp [data, next, x6]
    · simp [data, next]
    · simp [data, next, hn]
    · intro w p hm
      rcases k1 _ _ _ hm with h' | ⟨_, h'⟩
      · exact left_sub h'
      · cases h'
    · intro p hm
      rcases k1 _ _ _ hm with h' | ⟨_, h'⟩
      · exact left_sub h'
      · cases h'
    · intro p hm
      rcases k1 _ _ _ hm with h' | ⟨_, h'⟩
      · exact left_sub h'
      · cases h'
    · rintro p ⟨b, hm⟩
      rcases k2 _ _ hm with h' | ⟨h', _⟩
      · exact .inl ⟨b, leftU_sub h'⟩
      · exact .inr h'

theorem all_del (h : All g r) (hv : Pool.ConnLife g s') {c w : Nat} {fail : Bool} {ts : List Task} (hc : c < r.pool.n)
    (hq : r.pool.wq w = .del c :: ts)
    (hs : s' = Pool.delConn { r.pool with wq := Pool.upd r.pool.wq w ts } c) :
    All g (next g r (.exec w fail) s') := by
  obtain ⟨p, tl, htq⟩ := head_tag ((h.tq w).trans hq)
  obtain ⟨rfl, b1, b2, b3, b4⟩ := Pool.del_facts h.life hc (by rw [hq]; simp : Task.del c ∈ r.pool.wq w)
  have hx : (s'.conn c).worker = (r.pool.conn c).worker ∧ (s'.conn c).fed = (r.pool.conn c).fed ∧ (s'.conn c).term = (r.pool.conn c).term ∧
      (s'.conn c).closed = (r.pool.conn c).closed + 1 ∧ (s'.conn c).handshake = (r.pool.conn c).handshake ∧
      (s'.conn c).cbs = (r.pool.conn c).cbs := by
    subst hs; simp [Pool.delConn, Pool.releaseConn, Pool.setConn]
  obtain ⟨x1, x2, x3, x4, x5, x6⟩ := hx
  have hn : s'.n = r.pool.n := by subst hs; rfl
  have hwq : s'.wq 0 = ts := by subst hs; simp [Pool.delConn, Pool.releaseConn, Pool.setConn]
  refine wrap (N := fun _ _ => False) (U := fun u => u = ⟨c, false⟩) h hv (popped_exec h hq) ?_
    (by simp) (by rintro u rfl; rfl) ?_ hn hc ?_ ?_
  · subst hs; exact grow_del (grow_same rfl rfl) rfl
  · intro d hd; subst hs; simp [Pool.delConn, Pool.releaseConn, Pool.setConn, Pool.upd_ne _ _ hd]
  · rintro ⟨x, l⟩ hx; simp [event, htq, taskReads, taskWrites] at hx; grind
  · intro k1 k2 k3
    refine k_del (h.ri c hc) ⟨fun l hl => ?_, fun l hl => ?_⟩ p ?_ ?_ ?_ b2 b3 ?_ x1 x2 x3 ?_ x5 ?_ ?_ ?_ ?_ ?_ ?_ ?_
    · simpa [event, htq, taskReads] using hl
    · simpa [event, htq, taskWrites] using hl
    · simp [event, htq]
    · simp [event, htq]
    · show (Task.del c, p) ∈ r.tq 0; rw [htq]; simp
    · intro w p hm; exact b4 w (mem_tq h hm)
    · simp [data, next, x4]
    · simp [data, next, x6]
    · simp [data, next]
    · simp [data, next, hn]
    · intro w p hm
      rcases k1 _ _ _ hm with h' | ⟨_, h'⟩
      · exact left_sub h'
      · cases h'
    · intro p hm
      rcases k1 _ _ _ hm with h' | ⟨_, h'⟩
      · exact left_sub h'
      · cases h'
    · intro p hm
      have := k3 _ _ _ hm
      rw [hwq] at this
      rw [hq, List.count_cons_self] at b1
      exact List.count_eq_zero.1 (by omega) this
    · rintro p ⟨b, hm⟩
      rcases k2 _ _ hm with h' | ⟨h', _⟩
      · exact .inl ⟨b, leftU_sub h'⟩
      · exact .inr h'

/-- A closure that finds nothing to do. -/
theorem all_skip (h : All g r) (hv : Pool.ConnLife g s') {c w : Nat} {fail : Bool} {t : Task} {ts : List Task} (hc : c < r.pool.n)
    (hq : r.pool.wq w = t :: ts) (hr : taskReads g r.pool fail t = []) (hw : taskWrites r.pool t = [])
    (hs : s' = { r.pool with wq := Pool.upd r.pool.wq w ts }) :
    All g (next g r (.exec w fail) s') := by
  obtain ⟨p, tl, htq⟩ := head_tag ((h.tq w).trans hq)
  refine all_dispEv (c := c) h hv (popped_exec h hq) hc ?_ ?_ ?_ ?_ (.inr ⟨?_, ?_⟩) ?_ ?_
  · subst hs; exact ⟨rfl, rfl, rfl, rfl, rfl, rfl⟩
  · subst hs; exact grow_same rfl rfl
  · subst hs; rfl
  · subst hs; exact fun _ _ => rfl
  · simp [event, htq, hr]
  · simp [event, htq, hw]
  · simp [event, htq, hr]
  · simp [event, htq, hw]

theorem all_approve (h : All g r) (hv : Pool.ConnLife g s') {c w : Nat} {b fail : Bool} {ts : List Task} (hc : c < r.pool.n)
    (hq : r.pool.wq w = .approve c b :: ts) (ht : (r.pool.conn c).term = false)
    (hs : s' = Pool.execTask g { r.pool with wq := Pool.upd r.pool.wq w ts } w fail (.approve c b)) :
    All g (next g r (.exec w fail) s') := by
  obtain ⟨p, tl, htq⟩ := head_tag ((h.tq w).trans hq)
  obtain ⟨b1, b2⟩ := Pool.approve_facts h.life hc (by rw [hq]; simp : Task.approve c b ∈ r.pool.wq w)
  have hk : Keeps (s'.conn c) (r.pool.conn c) := by
    subst hs; simp only [Pool.execTask, ht]
    split
    · simp at *
    · split
      · split
        · exact ⟨by simp [Pool.setConn], by simp [Pool.setConn], by simp [Pool.setConn, ht], by simp [Pool.setConn],
            by simp [Pool.setConn], by simp [Pool.setConn]⟩
        · exact keeps_wt _ _
      · exact ⟨by simp [Pool.setConn], by simp [Pool.setConn], by simp [Pool.setConn, ht], by simp [Pool.setConn],
          by simp [Pool.setConn], by simp [Pool.setConn]⟩
  have hn : s'.n = r.pool.n := by
    subst hs; simp only [Pool.execTask]
    split
    · rfl
    · split
      · split
        · rfl
        · rw [wt_n]
      · rfl
  refine wrap (N := fun _ t => t = .wterm c) (U := fun _ => False) h hv (popped_exec h hq) ?_
    (by rintro w t rfl; rfl) (by simp) ?_ hn hc ?_ ?_
  · subst hs; simp only [Pool.execTask]
    split
    · exact grow_same rfl rfl
    · split
      · split
        · exact grow_same rfl rfl
        · exact grow_wt (grow_same rfl rfl) (fun _ => rfl)
      · exact grow_same rfl rfl
  · intro d hd; subst hs; simp only [Pool.execTask]
    split
    · rfl
    · split
      · split
        · simp [Pool.setConn, Pool.upd_ne _ _ hd]
        · rw [wt_conn_ne _ hd]
      · simp [Pool.setConn, Pool.upd_ne _ _ hd]
  · rintro ⟨x, l⟩ hx; simp [event, htq, taskReads, taskWrites, ht] at hx; grind
  · intro k1 k2 k3
    refine k_sock (h.ri c hc) ⟨fun l hl => ?_, fun l hl => ?_⟩ w ?_ b1 b2 ht ?_ ?_ (same_of hk hn) ?_ ?_ ?_ ?_
    · simp [event, htq, taskReads, ht] at hl; simp; grind
    · simpa [event, htq, taskWrites, ht] using hl
    · simp [event, htq]
    · intro w p hm; exact Pool.fed_noFeed h.life hc b2 w (mem_tq h hm)
    · intro p hm; exact (Pool.noDel h.life hc ht).1 (mem_tq h hm)
    · intro w p hm
      rcases k1 _ _ _ hm with h' | ⟨_, h'⟩
      · exact left_sub h'
      · cases h'
    · intro p hm
      rcases k1 _ _ _ hm with h' | ⟨_, h'⟩
      · exact left_sub h'
      · cases h'
    · intro p hm
      rcases k1 _ _ _ hm with h' | ⟨_, h'⟩
      · exact left_sub h'
      · cases h'
    · rintro p ⟨b, hm⟩
      rcases k2 _ _ hm with h' | ⟨_, h'⟩
      · exact ⟨b, leftU_sub h'⟩
      · exact h'.elim

theorem all_hs (h : All g r) (hv : Pool.ConnLife g s') {c : Nat} (hc : c < r.pool.n) (hsk : (r.pool.conn c).sock = true)
    (hh : (r.pool.conn c).handshake = true)
    (hs : s' = Pool.post (Pool.setConn r.pool c { r.pool.conn c with
        handshake := false, armed := false, sendOn := true, wSetup := (r.pool.conn c).wSetup + 1 }) 0 (.setup c)) :
    All g (next g r (.hsDone c) s') := by
  obtain ⟨w, f1, f2, f3, f4, f5, f6⟩ := Pool.sock_facts h.life hc hsk
  obtain ⟨q1, q2, q3, q4⟩ := Pool.hs_quiet h.life hc hh f6
  have hx : s'.conn c = { r.pool.conn c with
      handshake := false, armed := false, sendOn := true, wSetup := (r.pool.conn c).wSetup + 1 } := by
    subst hs; simp [Pool.post, Pool.setConn]
  have hn : s'.n = r.pool.n := by subst hs; rfl
  refine wrap (N := fun _ t => t = .setup c) (U := fun _ => False) h hv (popped_other h (by simp) (by simp)) ?_
    (by rintro w t rfl; rfl) (by simp) ?_ hn hc ?_ ?_
  · subst hs; exact grow_post (grow_same rfl rfl) rfl
  · intro d hd; subst hs; simp [Pool.post, Pool.setConn, Pool.upd_ne _ _ hd]
  · rintro ⟨x, l⟩ hx; simp [event] at hx; grind
  · intro k1 k2 k3
    refine k_hs (h.ri c hc) ⟨fun l hl => ?_, fun l hl => ?_⟩ w ?_ f1 f2 f3 ?_ ?_ hh ?_ ?_ ?_ q4 ?_ ?_ ?_ ?_ ?_ ?_ ?_ ?_ ?_ ?_ ?_ ?_
    · simpa [event] using hl
    · simpa [event] using hl
    · simp [event, sockThread, f1]
    · intro w p hm; exact f4 w (mem_tq h hm)
    · intro p hm; exact f5 (mem_tq h hm)
    · simp [data, f6]
    · simp [data, q1]
    · rintro p ⟨b, hm⟩; exact q2 b (mem_tu h hm)
    · simp [data, next, hx]
    · simp [data, next, hx]
    · simp [data, next, hx]
    · simp [data, next, hx]
    · simp [data, next, hx]
    · simp [data, next, hx]
    · simp [data, next]
    · simp [data, next, hn]
    · intro w p hm
      rcases k1 _ _ _ hm with h' | ⟨_, h'⟩
      · exact left_sub h'
      · cases h'
    · intro p hm
      rcases k1 _ _ _ hm with h' | ⟨h', _⟩
      · exact absurd (mem_tq h (left_sub h')) q3
      · exact h'
    · intro p hm
      rcases k1 _ _ _ hm with h' | ⟨_, h'⟩
      · exact left_sub h'
      · cases h'
    · rintro p ⟨b, hm⟩
      rcases k2 _ _ hm with h' | ⟨_, h'⟩
      · exact ⟨b, leftU_sub h'⟩
      · exact h'.elim

theorem all_user (h : All g r) (hv : Pool.ConnLife g s') {c : Nat} {b ans : Bool} {us : List Upd} (hc : c < r.pool.n)
    (hq : r.pool.uq = ⟨c, b⟩ :: us)
    (hk : (s'.conn c).worker = (r.pool.conn c).worker ∧ (s'.conn c).fed = (r.pool.conn c).fed ∧ (s'.conn c).term = (r.pool.conn c).term ∧
      (s'.conn c).closed = (r.pool.conn c).closed ∧ (s'.conn c).handshake = (r.pool.conn c).handshake ∧ (s'.conn c).cbs ≠ [])
    (hn : s'.n = r.pool.n) (hg : Grow { r.pool with uq := us } s' (fun _ t => ∃ r, t = .approve c r) (fun _ => False))
    (hconn : ∀ d, d ≠ c → s'.conn d = r.pool.conn d) :
    All g (next g r (.user ans) s') := by
  obtain ⟨p, tl, htq⟩ := head_tag (h.tu.trans hq)
  obtain ⟨u1, u2⟩ := Pool.upd_fed h.life hc (by rw [hq]; simp : (⟨c, b⟩ : Upd) ∈ r.pool.uq)
  obtain ⟨x1, x2, x3, x4, x5, x6⟩ := hk
  refine wrap h hv (popped_user h hq) hg (by rintro w t ⟨r, rfl⟩; rfl) (by simp) hconn hn hc ?_ ?_
  · rintro ⟨x, l⟩ hx; simp [event, htq] at hx; grind
  · intro k1 k2 k3
    refine k_user (h.ri c hc) ⟨fun l hl => ?_, fun l hl => ?_⟩ p ?_ ?_ ?_ ?_ ?_ x1 x2 x3 ?_ x5 ?_ ?_ ?_ ?_ ?_ ?_ ?_
    · simp [event, htq] at hl; simp; grind
    · simp [event, htq] at hl
    · simp [event, htq]
    · simp [event, htq]
    · exact ⟨b, by rw [htq]; simp⟩
    · intro hl; simp [event, htq] at hl
      exact u1 hl
    · simpa [data] using u2
    · simp [data, next, x4]
    · simp [data, next, x6]
    · simp [data, next]
    · simp [data, next, hn]
    · intro w p hm
      rcases k1 _ _ _ hm with h' | ⟨_, r, h'⟩
      · exact left_sub h'
      · cases h'
    · intro p hm
      rcases k1 _ _ _ hm with h' | ⟨_, r, h'⟩
      · exact left_sub h'
      · cases h'
    · intro p hm
      rcases k1 _ _ _ hm with h' | ⟨_, r, h'⟩
      · exact left_sub h'
      · cases h'
    · rintro p ⟨b, hm⟩
      rcases k2 _ _ hm with h' | ⟨_, h'⟩
      · exact ⟨b, leftU_sub h'⟩
      · exact h'.elim

end
end Races
end Salticidae
