import Verif.Model.PoolMsg
import Verif.Lemmas.PoolV3
namespace Salticidae
namespace PoolMsg
open Pool

/-- A terminated connection is not read from, even when its socket is being watched. -/
def V5 (g : Cfg) (x : Conn) : Prop := x.term = true → x.sock = true →
  (g.tls = true → x.recvData = false) ∧ (g.tls = false → x.armed = false ∧ x.readySend = false)

theorem v5_off {g : Cfg} {x : Conn} (h : x.sock = false) : V5 g x := by intro _ hs; rw [h] at hs; cases hs
theorem v5_live {g : Cfg} {x : Conn} (h : x.term = false) : V5 g x := by intro hs; rw [h] at hs; cases hs

theorem v5_same {g : Cfg} {x y : Conn} (h : V5 g x) (e1 : y.term = x.term) (e2 : y.sock = x.sock) (e3 : y.recvData = x.recvData)
    (e4 : y.armed = x.armed) (e5 : y.readySend = x.readySend) : V5 g y := by
  intro h1 h2; rw [e1] at h1; rw [e2] at h2; rw [e3, e4, e5]; exact h h1 h2

theorem v5_new {g : Cfg} {c : Nat} {v : V} (h : VNew g c v) : V5 g v.x := by
  cases h <;> exact v5_live rfl

theorem v5_wt {g : Cfg} {c : Nat} {v : V} (h : V5 g v.x) : V5 g (vWorkerTerm v c).x := by
  unfold vWorkerTerm; split
  · exact v5_same h rfl rfl rfl rfl rfl
  · exact h

theorem v5_dt {g : Cfg} {c : Nat} {v : V} (h : V5 g v.x) : V5 g (vDispTerm v c).x := by
  unfold vDispTerm; split
  · exact v5_wt h
  · exact v5_same h rfl rfl rfl rfl rfl

theorem v5_step {g : Cfg} {c : Nat} {v v' : V} {a : Act} (h1 : V1 g c v) (h : V5 g v.x) (hs : VStep g c v v' a) : V5 g v'.x := by
  cases hs with
  | exec w fail t ts hc hq hw =>
    have hin : t ∈ v.q w := by rw [hq]; simp
    cases t with
    | feed c' =>
      simp only [Task.conn] at hc; subst hc
      have hv : v.x.verdict = none := by
        have ht := h1.tok
        rw [tok_some (h1.feedW w hin)] at ht
        have : 0 < (v.q w).count (.feed c') := List.count_pos_iff.2 hin
        cases e : v.x.verdict with
        | none => rfl
        | some r => rw [e] at ht; simp at ht; omega
      simp only [vExec]; split
      · rename_i htls
        intro _ _
        exact ⟨fun _ => rfl, fun hf => (by rw [htls] at hf; cases hf)⟩
      · rename_i htls
        intro _ _
        have htls : g.tls = false := by simpa using htls
        have hn := (h1.ntls htls).2
        refine ⟨fun hf => (by rw [htls] at hf; cases hf), fun _ => ⟨?_, ?_⟩⟩
        · show v.x.armed = false
          cases e : v.x.armed with
          | false => rfl
          | true => exact absurd hv (hn (.inl e))
        · show v.x.readySend = false
          cases e : v.x.readySend with
          | false => rfl
          | true => exact absurd hv (hn (.inr (.inl e)))
    | setup c' =>
      simp only [vExec]; split
      · exact v5_dt (v5_same h rfl rfl rfl rfl rfl)
      · exact v5_same h rfl rfl rfl rfl rfl
    | wterm c' =>
      simp only [vExec]; split
      · exact h
      · exact v5_off rfl
    | dterm c' =>
      simp only [vExec]; split
      · exact h
      · exact v5_off rfl
    | userTerm c' => exact v5_dt (v := v.pop w) h
    | del c' => exact v5_off rfl
    | approve c' r =>
      simp only [vExec]; split
      · exact h
      · rename_i ht
        have ht : v.x.term = false := by simpa [V.pop] using ht
        split
        · split
          · exact v5_live ht
          · exact v5_wt (v := v.pop w) h
        · exact v5_live ht
  | connReady w hev => exact v5_same h rfl rfl rfl rfl rfl
  | connFail timeout hev => exact v5_dt (v5_same h rfl rfl rfl rfl rfl)
  | terminate => exact v5_same h rfl rfl rfl rfl rfl
  | userUp r w us hu hw => exact v5_same h rfl rfl rfl rfl rfl
  | userDown r us hu => exact v5_same h rfl rfl rfl rfl rfl
  | readable hs ha =>
    split
    · exact v5_same h rfl rfl rfl rfl rfl
    · exact h
  | writable hs ha =>
    intro h1 h2
    refine ⟨(h h1 h2).1, fun hf => ?_⟩
    have := ((h h1 h2).2 hf).1
    rw [ha] at this; cases this
  | hsDone hs ha hh =>
    intro h1 h2
    refine ⟨(h h1 h2).1, fun hf => ⟨rfl, ((h h1 h2).2 hf).2⟩⟩
  | ioError hs ha hw => exact v5_wt h
  | sendBuf hs ho hr =>
    intro h1 h2
    refine ⟨(h h1 h2).1, fun hf => ?_⟩
    have := ((h h1 h2).2 hf).2
    rw [hr] at this; cases this

/-! ### The callbacks -/

@[simp] theorem wt_cbs (s : St) (c d : Nat) : ((workerTerminate s c).conn d).cbs = (s.conn d).cbs := by
  unfold workerTerminate; split
  · simp only [post, setConn, upd]; split
    · next h => subst h; rfl
    · rfl
  · rfl

@[simp] theorem dt_cbs (s : St) (c d : Nat) : ((dispTerminate s c).conn d).cbs = (s.conn d).cbs := by
  unfold dispTerminate; split
  · exact wt_cbs ..
  · simp only [post, setConn, upd]; split
    · next h => subst h; rfl
    · rfl

theorem exec_cbs (g : Cfg) (s : St) (w : Nat) (fail : Bool) (t : Task) (d : Nat) :
    ((execTask g s w fail t).conn d).cbs = (s.conn d).cbs := by
  cases t <;> simp only [execTask, feed, delConn, releaseConn, workerTeardown, post, setConn, upd] <;> repeat' split
  all_goals simp_all [upd]
  all_goals (try split) <;> simp_all

theorem step_cbs {g : Cfg} {s s' : St} {a : Act} (h : step g s a = some s') (c : Nat) (hc : c < s.n) (b : Bool) :
    b ∈ (s'.conn c).cbs ↔ b ∈ (s.conn c).cbs ∨ Ev.cb c b ∈ told s a := by
  cases a with
  | user r =>
    simp only [step] at h
    split at h
    · cases h
    · rename_i c' con us hu
      cases h
      have key : ∀ (s1 : St) (x : Conn), (s1.conn c).cbs = (if c = c' then (s.conn c').cbs ++ [con] else (s.conn c).cbs) →
          (b ∈ (s1.conn c).cbs ↔ b ∈ (s.conn c).cbs ∨ Ev.cb c b ∈ told s (.user r)) := by
        intro s1 x h1
        rw [h1]
        simp only [told, hu, List.mem_singleton, Ev.cb.injEq]
        split
        · next e => subst e; simp
        · next e => simp [e]
      apply key _ (s.conn c)
      split
      · split
        · simp only [post, setConn, upd]; split <;> rfl
        · simp only [setConn, upd]; split <;> rfl
      · simp only [setConn, upd]; split <;> rfl
  | exec w fail =>
    simp only [step] at h
    split at h
    · cases h
    · cases h; rw [exec_cbs]; simp [told]
  | connect fd ok =>
    simp only [step] at h
    split at h
    · cases h
      have hne : ¬ c = s.n := by omega
      split <;> simp [upd, hne, told]
    · cases h
  | accept fd =>
    simp only [step] at h
    split at h
    · cases h
      have hne : ¬ c = s.n := by omega
      simp [post, upd, hne, told]
    · cases h
  | connFail c' timeout =>
    simp only [step] at h
    split at h
    · cases h; simp only [dt_cbs, setConn, upd]; split <;> simp_all [told]
    · cases h
  | ioError c' =>
    simp only [step] at h
    split at h
    · cases h; simp [told]
    · cases h
  | readable c' =>
    simp only [step] at h
    split at h
    · cases h; split
      · simp only [setConn, upd]; split <;> simp_all [told]
      · simp [told]
    · cases h
  | acceptFail => simp only [step] at h; split at h <;> cases h; simp [told]
  | listen => simp only [step] at h; cases h; simp [told]
  | connReady c' => simp only [step] at h; split at h <;> cases h; simp only [post, setConn, upd]; split <;> simp_all [told]
  | terminate c' => simp only [step] at h; split at h <;> cases h; simp only [post, setConn, upd]; split <;> simp_all [told]
  | writable c' => simp only [step] at h; split at h <;> cases h; simp only [setConn, upd]; split <;> simp_all [told]
  | hsDone c' => simp only [step] at h; split at h <;> cases h; simp only [post, setConn, upd]; split <;> simp_all [told]
  | sendBuf c' => simp only [step] at h; split at h <;> cases h; simp only [setConn, upd]; split <;> simp_all [told]

/-! ### The invariant -/

structure MInv (g : Cfg) (s : MSt) : Prop where
  v1 : AllV1 g s.st
  v3 : ∀ c, c < s.st.n → V3 c (view s.st c)
  v5 : ∀ c, c < s.st.n → V5 g (s.st.conn c)
  logc : ∀ c b, .cb c b ∈ s.log ↔ c < s.st.n ∧ b ∈ (s.st.conn c).cbs
  mqv : ∀ c ∈ s.mq, c < s.st.n ∧ true ∈ (s.st.conn c).cbs
  pollv : ∀ c, s.poll c = true → c < s.st.n ∧ true ∈ (s.st.conn c).cbs ∧ (s.st.conn c).wDown = 0
  ord : ∀ c l r, s.log = l ++ .msg c :: r → .cb c true ∈ l

theorem minv_init (g : Cfg) : MInv g minit :=
  ⟨allV1_init g, by simp [minit, init], by simp [minit, init], by simp [minit, init], by simp [minit], by simp [minit],
    by simp [minit]⟩

theorem vnew_cbs {g : Cfg} {c : Nat} {v : V} (h : VNew g c v) : v.x.cbs = [] := by cases h <;> rfl

theorem minv_after {g : Cfg} {s : MSt} {a : Act} {st' : St} (h : MInv g s) (hs : step g s.st a = some st') :
    MInv g (after s a st') := by
  obtain ⟨hn, h2, h3⟩ := step_view h.v1.base hs
  have hmono : ∀ c b, c < s.st.n → b ∈ (s.st.conn c).cbs → b ∈ (st'.conn c).cbs := fun c b hc hb =>
    (step_cbs hs c hc b).2 (.inl hb)
  have htold : ∀ c b, Ev.cb c b ∈ told s.st a → c < s.st.n := by
    intro c b hm
    unfold told at hm
    split at hm
    · split at hm
      · cases hm
      · rename_i u us hu
        simp only [List.mem_singleton, Ev.cb.injEq] at hm
        rw [hm.1]; exact h.v1.base.uvalid u (by rw [hu]; simp)
    · cases hm
  refine ⟨allV1_step h.v1 hs, fun c hc => ?_, fun c hc => ?_, fun c b => ?_, fun c hc => ?_, fun c hp => ?_, fun c l r hl => ?_⟩
  · by_cases e : c < s.st.n
    · rcases h2 c e with h2 | h2
      · show V3 c (view st' c); rw [h2]; exact h.v3 c e
      · exact v3_step (h.v1.v1 c e) (h.v3 c e) h2
    · exact v3_new (h3 c (by omega) hc)
  · by_cases e : c < s.st.n
    · rcases h2 c e with h2 | h2
      · have : st'.conn c = s.st.conn c := congrArg V.x h2
        show V5 g (st'.conn c); rw [this]; exact h.v5 c e
      · exact v5_step (h.v1.v1 c e) (h.v5 c e) h2
    · exact v5_new (h3 c (by omega) hc)
  · show Ev.cb c b ∈ s.log ++ told s.st a ↔ c < st'.n ∧ b ∈ (st'.conn c).cbs
    rw [List.mem_append, h.logc]
    by_cases e : c < s.st.n
    · rw [step_cbs hs c e b]
      have : c < st'.n := by omega
      simp [e, this]
    · constructor
      · rintro (h' | h')
        · exact absurd h'.1 e
        · exact absurd (htold c b h') e
      · rintro ⟨hc, hb⟩
        have := vnew_cbs (h3 c (by omega) hc)
        rw [show (st'.conn c).cbs = [] from this] at hb; cases hb
  · obtain ⟨k1, k2⟩ := h.mqv c hc
    exact ⟨Nat.lt_of_lt_of_le k1 hn, hmono c true k1 k2⟩
  · simp only [after, Bool.and_eq_true, beq_iff_eq] at hp
    obtain ⟨k1, k2, k3⟩ := h.pollv c hp.1
    exact ⟨Nat.lt_of_lt_of_le k1 hn, hmono c true k1 k2, by rw [← k3]; exact hp.2⟩
  · have hno : Ev.msg c ∉ told s.st a := by
      unfold told; split
      · split <;> simp
      · simp
    have hl : s.log ++ told s.st a = l ++ .msg c :: r := hl
    rw [List.append_eq_append_iff] at hl
    rcases hl with ⟨l', e1, e2⟩ | ⟨l', e1, e2⟩
    · exact absurd (by rw [e2]; simp) hno
    · cases l' with
      | nil => simp at e2; rw [← e2] at hno; simp at hno
      | cons y ys =>
        simp at e2
        exact h.ord c l ys (by rw [e1, ← e2.1])

/-- A connection from which messages are read is connected and not torn down. -/
theorem reading {g : Cfg} {s : MSt} {c : Nat} {st' : St} (h : MInv g s) (hs : step g s.st (.readable c) = some st')
    (hr : (s.st.conn c).recvData = true) :
    c < s.st.n ∧ true ∈ (s.st.conn c).cbs ∧ (s.st.conn c).wDown = 0 := by
  simp only [step] at hs
  split at hs
  · rename_i hg
    obtain ⟨hc, hso, har⟩ := hg
    have hv : (s.st.conn c).verdict ≠ none := by
      cases e : g.tls with
      | true =>
        have := (h.v1.v1 c hc).tlsR e (.inl hr)
        intro hn; rw [show (view s.st c).x.verdict = none from hn] at this; cases this
      | false => exact ((h.v1.v1 c hc).ntls e).2 (.inl har)
    have ht : (s.st.conn c).term = false := by
      cases e : (s.st.conn c).term with
      | false => rfl
      | true =>
        have := h.v5 c hc e hso
        cases e' : g.tls with
        | true => have := this.1 e'; rw [hr] at this; cases this
        | false => have := (this.2 e').1; rw [har] at this; cases this
    refine ⟨hc, ?_, ?_⟩
    · apply List.count_pos_iff.1
      have : (s.st.conn c).cbs.count true = (s.st.conn c).verdict.isSome.toNat := (h.v3 c hc).cbsT
      rw [this]
      cases e : (s.st.conn c).verdict with
      | none => exact absurd e hv
      | some r => simp
    · have := (h.v1.base.conn c hc).wdown
      rw [ht] at this; simpa using this
  · cases hs

/-- Reading changes neither the callbacks nor the number of connections. -/
theorem readable_keeps {g : Cfg} {s st' : St} {c : Nat} (hs : step g s (.readable c) = some st') (d : Nat) :
    st'.n = s.n ∧ (st'.conn d).cbs = (s.conn d).cbs ∧ (st'.conn d).wDown = (s.conn d).wDown := by
  simp only [step] at hs
  split at hs
  · cases hs; split
    · simp only [setConn, upd]
      by_cases e : d = c
      · subst e; simp
      · simp [e]
    · exact ⟨rfl, rfl, rfl⟩
  · cases hs

theorem minv_step {g : Cfg} {s s' : MSt} {a : MAct} (h : MInv g s) (hs : mstep g s a = some s') : MInv g s' := by
  cases a with
  | pool a =>
    simp only [mstep, Option.map_eq_some_iff] at hs
    obtain ⟨st', h1, rfl⟩ := hs
    exact minv_after h h1
  | read c k full =>
    simp only [mstep, Option.map_eq_some_iff] at hs
    obtain ⟨st', h1, rfl⟩ := hs
    have ha := minv_after h h1
    split
    · rename_i hr
      simp only [Bool.and_eq_true] at hr
      obtain ⟨k1, k2, k3⟩ := reading h h1 hr.1
      have hk := readable_keeps h1
      refine ⟨ha.v1, ha.v3, ha.v5, ha.logc, fun d hd => ?_, fun d hp => ?_, ha.ord⟩
      · rcases List.mem_append.1 hd with hd | hd
        · exact ha.mqv d hd
        · rw [List.eq_of_mem_replicate hd]
          exact ⟨by show c < st'.n; rw [(hk c).1]; exact k1, by show true ∈ (st'.conn c).cbs; rw [(hk c).2.1]; exact k2⟩
      · by_cases e : d = c
        · subst e
          exact ⟨by show d < st'.n; rw [(hk d).1]; exact k1, by show true ∈ (st'.conn d).cbs; rw [(hk d).2.1]; exact k2,
            by show (st'.conn d).wDown = 0; rw [(hk d).2.2]; exact k3⟩
        · exact ha.pollv d (by simpa [upd, e] using hp)
    · exact ha
  | retry c k full =>
    simp only [mstep] at hs
    split at hs
    · rename_i hp
      cases hs
      obtain ⟨k1, k2, k3⟩ := h.pollv c hp
      refine ⟨h.v1, h.v3, h.v5, h.logc, fun d hd => ?_, fun d hp' => ?_, h.ord⟩
      · rcases List.mem_append.1 hd with hd | hd
        · exact h.mqv d hd
        · rcases List.mem_cons.1 hd with rfl | hd
          · exact ⟨k1, k2⟩
          · rw [List.eq_of_mem_replicate hd]; exact ⟨k1, k2⟩
      · by_cases e : d = c
        · subst e; exact ⟨k1, k2, k3⟩
        · exact h.pollv d (by simpa [upd, e] using hp')
    · cases hs
  | handle =>
    simp only [mstep] at hs
    split at hs
    · cases hs
    · rename_i c ms hq
      cases hs
      have hc := h.mqv c (by rw [hq]; simp)
      refine ⟨h.v1, h.v3, h.v5, fun d b => ?_, fun d hd => h.mqv d (by rw [hq]; exact List.mem_cons_of_mem _ hd), h.pollv,
        fun d l r hl => ?_⟩
      · show Ev.cb d b ∈ s.log ++ [.msg c] ↔ _
        rw [List.mem_append]; simp [h.logc]
      · have hl : s.log ++ [.msg c] = l ++ .msg d :: r := hl
        rw [List.append_eq_append_iff] at hl
        rcases hl with ⟨l', e1, e2⟩ | ⟨l', e1, e2⟩
        · cases l' with
          | nil =>
            simp at e2 e1
            rw [e1, ← e2.1]; exact (h.logc c true).2 hc
          | cons y ys => simp at e2
        · cases l' with
          | nil =>
            simp at e2 e1
            rw [← e1, e2.1]; exact (h.logc c true).2 hc
          | cons y ys =>
            simp at e2
            exact h.ord d l ys (by rw [e1, ← e2.1])
  | drop =>
    simp only [mstep] at hs
    split at hs
    · cases hs
    · rename_i c ms hq
      cases hs
      exact ⟨h.v1, h.v3, h.v5, h.logc, fun d hd => h.mqv d (by rw [hq]; exact List.mem_cons_of_mem _ hd), h.pollv, h.ord⟩

theorem minv_run {g : Cfg} : ∀ (as : List MAct) (s s' : MSt), MInv g s → mrun g s as = some s' → MInv g s' := by
  intro as
  induction as with
  | nil => intro s s' hi h; cases h; exact hi
  | cons a as ih =>
    intro s s' hi h
    simp only [mrun] at h
    rcases e : mstep g s a with _ | s1
    · rw [e] at h; cases h
    · rw [e] at h; exact ih s1 s' (minv_step hi e) h

/-- A connection whose user has been told that it is gone has been torn down. -/
theorem told_down {g : Cfg} {s : MSt} {c : Nat} (h : MInv g s) (hl : .cb c false ∈ s.log) : (s.st.conn c).wDown ≠ 0 := by
  obtain ⟨hc, hb⟩ := (h.logc c false).1 hl
  have hi := h.v1.base.conn c hc
  have h1 := hi.cb
  have h2 : 0 < (s.st.conn c).cbs.count false := List.count_pos_iff.2 hb
  have h3 := hi.once
  have h4 := hi.wdown
  simp only [reduceCtorEq, if_false, Nat.add_zero] at h3
  omega

theorem log_prefix {g : Cfg} {s s' : MSt} {a : MAct} (hs : mstep g s a = some s') :
    ∃ l, s'.log = s.log ++ l := by
  cases a with
  | pool a =>
    simp only [mstep, Option.map_eq_some_iff] at hs
    obtain ⟨st', h1, rfl⟩ := hs
    exact ⟨_, rfl⟩
  | read c k full =>
    simp only [mstep, Option.map_eq_some_iff] at hs
    obtain ⟨st', h1, rfl⟩ := hs
    split
    · exact ⟨_, rfl⟩
    · exact ⟨_, rfl⟩
  | retry c k full => simp only [mstep] at hs; split at hs <;> cases hs; exact ⟨[], by simp⟩
  | handle => simp only [mstep] at hs; split at hs <;> cases hs; exact ⟨_, rfl⟩
  | drop => simp only [mstep] at hs; split at hs <;> cases hs; exact ⟨[], by simp⟩

theorem told_count (s : St) (a : Act) (c : Nat) : (told s a).count (.msg c) = 0 := by
  unfold told; split
  · split <;> simp
  · simp

/-- Once the user has been told that a connection is gone, no message of it arrives any more. -/
theorem backlog_step {g : Cfg} {s s' : MSt} {a : MAct} {c : Nat} (h : MInv g s) (hs : mstep g s a = some s')
    (hl : .cb c false ∈ s.log) :
    s'.log.count (.msg c) + s'.mq.count c ≤ s.log.count (.msg c) + s.mq.count c := by
  have hd := told_down h hl
  cases a with
  | pool a =>
    simp only [mstep, Option.map_eq_some_iff] at hs
    obtain ⟨st', h1, rfl⟩ := hs
    simp [after, told_count]
  | read d k full =>
    simp only [mstep, Option.map_eq_some_iff] at hs
    obtain ⟨st', h1, rfl⟩ := hs
    split
    · rename_i hr
      simp only [Bool.and_eq_true] at hr
      obtain ⟨k1, k2, k3⟩ := reading h h1 hr.1
      have hne : d ≠ c := by rintro rfl; exact hd k3
      simp [after, told_count, List.count_replicate, hne]
    · simp [after, told_count]
  | retry d k full =>
    simp only [mstep] at hs
    split at hs
    · rename_i hp
      cases hs
      obtain ⟨k1, k2, k3⟩ := h.pollv d hp
      have hne : d ≠ c := by rintro rfl; exact hd k3
      simp [List.count_cons, List.count_replicate, hne]
    · cases hs
  | handle =>
    simp only [mstep] at hs
    split at hs
    · cases hs
    · rename_i d ms hq
      cases hs
      rw [hq]
      simp only [List.count_append, List.count_cons, List.count_nil]
      by_cases e : d = c
      · subst e; simp; omega
      · simp [e]
  | drop =>
    simp only [mstep] at hs
    split at hs
    · cases hs
    · rename_i d ms hq
      cases hs
      rw [hq]
      simp only [List.count_cons]
      omega

theorem backlog_run {g : Cfg} {c : Nat} : ∀ (as : List MAct) (s s' : MSt), MInv g s → mrun g s as = some s' → .cb c false ∈ s.log →
    s'.log.count (.msg c) + s'.mq.count c ≤ s.log.count (.msg c) + s.mq.count c := by
  intro as
  induction as with
  | nil => intro s s' hi h _; cases h; exact Nat.le_refl _
  | cons a as ih =>
    intro s s' hi h hl
    simp only [mrun] at h
    rcases e : mstep g s a with _ | s1
    · rw [e] at h; cases h
    · rw [e] at h
      obtain ⟨l, hl1⟩ := log_prefix e
      exact Nat.le_trans (ih s1 s' (minv_step hi e) h (by rw [hl1]; simp [hl])) (backlog_step hi e hl)

theorem mrun_append {g : Cfg} : ∀ (as bs : List MAct) (s : MSt), mrun g s (as ++ bs) = (mrun g s as).bind (fun s => mrun g s bs) := by
  intro as
  induction as with
  | nil => intro bs s; rfl
  | cons a as ih =>
    intro bs s
    simp only [List.cons_append, mrun]
    cases mstep g s a with
    | none => rfl
    | some s1 => exact ih bs s1

/-! ### Messages come only from connections that have been read from -/

theorem wt_reads (v : V) (c : Nat) : (vWorkerTerm v c).x.reads = v.x.reads := by unfold vWorkerTerm; split <;> rfl
theorem dt_reads (v : V) (c : Nat) : (vDispTerm v c).x.reads = v.x.reads := by
  unfold vDispTerm; split
  · exact wt_reads ..
  · rfl

theorem vstep_reads {g : Cfg} {c : Nat} {v v' : V} {a : Act} (hs : VStep g c v v' a) : v.x.reads ≤ v'.x.reads := by
  cases hs with
  | exec w fail t ts hc hq hw =>
    cases t <;> simp only [vExec] <;> (repeat' split) <;>
      simp [V.set, V.post, V.pop, V.rep, vDel, vTeardown, wt_reads, dt_reads]
  | connFail timeout hev => simp [dt_reads, V.set]
  | ioError hs ha hw => simp [wt_reads]
  | readable hs ha => split <;> simp [V.set]
  | _ => simp [V.set, V.post]

def MRd (s : MSt) : Prop := ∀ c, c ∈ s.mq ∨ s.poll c = true ∨ .msg c ∈ s.log → c < s.st.n ∧ 0 < (s.st.conn c).reads

theorem mrd_after {g : Cfg} {s : MSt} {a : Act} {st' : St} (hi : MInv g s) (h : MRd s) (hs : step g s.st a = some st') :
    MRd (after s a st') := by
  obtain ⟨hn, h2, _⟩ := step_view hi.v1.base hs
  intro c hc
  have : c ∈ s.mq ∨ s.poll c = true ∨ .msg c ∈ s.log := by
    rcases hc with hc | hc | hc
    · exact .inl hc
    · simp only [after, Bool.and_eq_true] at hc; exact .inr (.inl hc.1)
    · have hc : Ev.msg c ∈ s.log ++ told s.st a := hc
      rcases List.mem_append.1 hc with hc | hc
      · exact .inr (.inr hc)
      · have := told_count s.st a c
        exact absurd hc (List.count_eq_zero.1 this)
  obtain ⟨k1, k2⟩ := h c this
  refine ⟨Nat.lt_of_lt_of_le k1 hn, Nat.lt_of_lt_of_le k2 ?_⟩
  rcases h2 c k1 with h2 | h2
  · exact Nat.le_of_eq (congrArg (·.x.reads) h2).symm
  · exact vstep_reads h2

theorem mrd_step {g : Cfg} {s s' : MSt} {a : MAct} (hi : MInv g s) (h : MRd s) (hs : mstep g s a = some s') : MRd s' := by
  cases a with
  | pool a =>
    simp only [mstep, Option.map_eq_some_iff] at hs
    obtain ⟨st', h1, rfl⟩ := hs
    exact mrd_after hi h h1
  | read c k full =>
    simp only [mstep, Option.map_eq_some_iff] at hs
    obtain ⟨st', h1, rfl⟩ := hs
    have ha := mrd_after hi h h1
    split
    · rename_i hr
      simp only [Bool.and_eq_true] at hr
      obtain ⟨k1, k2, k3⟩ := reading hi h1 hr.1
      have hc : c < st'.n ∧ 0 < (st'.conn c).reads := by
        refine ⟨by rw [(readable_keeps h1 c).1]; exact k1, ?_⟩
        simp only [step] at h1
        split at h1
        · cases h1; rw [if_pos hr.1]; simp [setConn]
        · cases h1
      intro d hd
      by_cases e : d = c
      · subst e; exact hc
      · apply ha d
        rcases hd with hd | hd | hd
        · rcases List.mem_append.1 hd with hd | hd
          · exact .inl hd
          · exact absurd (List.eq_of_mem_replicate hd) e
        · exact .inr (.inl (by simpa [upd, e] using hd))
        · exact .inr (.inr hd)
    · exact ha
  | retry c k full =>
    simp only [mstep] at hs
    split at hs
    · rename_i hp
      cases hs
      have hc := h c (.inr (.inl hp))
      intro d hd
      by_cases e : d = c
      · subst e; exact hc
      · apply h d
        rcases hd with hd | hd | hd
        · rcases List.mem_append.1 hd with hd | hd
          · exact .inl hd
          · rcases List.mem_cons.1 hd with rfl | hd
            · exact absurd rfl e
            · exact absurd (List.eq_of_mem_replicate hd) e
        · exact .inr (.inl (by simpa [upd, e] using hd))
        · exact .inr (.inr hd)
    · cases hs
  | handle =>
    simp only [mstep] at hs
    split at hs
    · cases hs
    · rename_i c ms hq
      cases hs
      intro d hd
      apply h d
      rcases hd with hd | hd | hd
      · left; rw [hq]; exact List.mem_cons_of_mem _ hd
      · exact .inr (.inl hd)
      · rcases List.mem_append.1 hd with hd | hd
        · exact .inr (.inr hd)
        · simp at hd; left; rw [hq, hd]; simp
  | drop =>
    simp only [mstep] at hs
    split at hs
    · cases hs
    · rename_i c ms hq
      cases hs
      intro d hd
      apply h d
      rcases hd with hd | hd
      · left; rw [hq]; exact List.mem_cons_of_mem _ hd
      · exact .inr hd

theorem mrd_run {g : Cfg} : ∀ (as : List MAct) (s s' : MSt), MInv g s → MRd s → mrun g s as = some s' → MRd s' := by
  intro as
  induction as with
  | nil => intro s s' _ hr h; cases h; exact hr
  | cons a as ih =>
    intro s s' hi hr h
    simp only [mrun] at h
    rcases e : mstep g s a with _ | s1
    · rw [e] at h; cases h
    · rw [e] at h; exact ih s1 s' (minv_step hi e) (mrd_step hi hr e) h

/-! ### Order when nothing waits -/

theorem order_step {g : Cfg} {s s' : MSt} {a : MAct} {c : Nat} (h : MInv g s) (hs : mstep g s a = some s')
    (hw : .cb c false ∈ s.log → s.mq.count c = 0) (ho : ∀ l r, s.log = l ++ .msg c :: r → .cb c false ∉ l)
    (hu : ∀ r, a = .pool (.user r) → s.st.uq.head? = some ⟨c, false⟩ → s.mq.count c = 0) :
    (.cb c false ∈ s'.log → s'.mq.count c = 0) ∧ (∀ l r, s'.log = l ++ .msg c :: r → .cb c false ∉ l) := by
  constructor
  · intro hl
    by_cases hl0 : .cb c false ∈ s.log
    · have h1 := backlog_step h hs hl0
      obtain ⟨l, e⟩ := log_prefix hs
      have h2 := hw hl0
      rw [e, List.count_append] at h1
      omega
    · cases a with
      | pool a =>
        simp only [mstep, Option.map_eq_some_iff] at hs
        obtain ⟨st', h1, rfl⟩ := hs
        have hl : Ev.cb c false ∈ s.log ++ told s.st a := hl
        rcases List.mem_append.1 hl with hl | hl
        · exact absurd hl hl0
        · cases a with
          | user r =>
            refine hu r rfl ?_
            simp only [told] at hl
            split at hl
            · cases hl
            · rename_i u us he
              simp at hl
              rw [he]; cases u; simp_all
          | _ => simp [told] at hl
      | read d k full =>
        simp only [mstep, Option.map_eq_some_iff] at hs
        obtain ⟨st', h1, rfl⟩ := hs
        exfalso; apply hl0
        split at hl <;> simpa [after, told] using hl
      | retry d k full => simp only [mstep] at hs; split at hs <;> cases hs; exact absurd hl hl0
      | handle =>
        simp only [mstep] at hs; split at hs <;> cases hs
        exact absurd (by simpa using hl) hl0
      | drop => simp only [mstep] at hs; split at hs <;> cases hs; exact absurd hl hl0
  · intro l r hl
    cases a with
    | handle =>
      simp only [mstep] at hs
      split at hs
      · cases hs
      · rename_i d ms hq
        cases hs
        have hl : s.log ++ [.msg d] = l ++ .msg c :: r := hl
        rcases List.append_eq_append_iff.1 hl with ⟨l', e1, e2⟩ | ⟨l', e1, e2⟩
        · have : l' = [] ∧ d = c := by cases l' <;> simp_all
          obtain ⟨rfl, rfl⟩ := this
          intro hm
          have := hw (by rw [← List.append_nil s.log, ← e1]; exact hm)
          rw [hq] at this; simp at this
        · cases l' with
          | nil =>
            simp at e2 e1
            intro hm
            have := hw (by rw [e1]; exact hm)
            rw [hq, e2.1] at this; simp at this
          | cons y ys =>
            simp at e2
            exact ho l ys (by rw [e1, ← e2.1])
    | pool a =>
      simp only [mstep, Option.map_eq_some_iff] at hs
      obtain ⟨st', h1, rfl⟩ := hs
      have hl : s.log ++ told s.st a = l ++ .msg c :: r := hl
      have hno : Ev.msg c ∉ told s.st a := List.count_eq_zero.1 (told_count s.st a c)
      rcases List.append_eq_append_iff.1 hl with ⟨l', e1, e2⟩ | ⟨l', e1, e2⟩
      · exact absurd (by rw [e2]; simp) hno
      · cases l' with
        | nil => simp at e2; rw [← e2] at hno; simp at hno
        | cons y ys => simp at e2; exact ho l ys (by rw [e1, ← e2.1])
    | read d k full =>
      simp only [mstep, Option.map_eq_some_iff] at hs
      obtain ⟨st', h1, rfl⟩ := hs
      apply ho l r
      split at hl <;> simpa [after, told] using hl
    | retry d k full => simp only [mstep] at hs; split at hs <;> cases hs; exact ho l r hl
    | drop => simp only [mstep] at hs; split at hs <;> cases hs; exact ho l r hl

theorem order_run {g : Cfg} {c : Nat} : ∀ (as : List MAct) (s s' : MSt), MInv g s → mrun g s as = some s' →
    (.cb c false ∈ s.log → s.mq.count c = 0) → (∀ l r, s.log = l ++ .msg c :: r → .cb c false ∉ l) →
    (∀ bs cs r s1, as = bs ++ .pool (.user r) :: cs → mrun g s bs = some s1 → s1.st.uq.head? = some ⟨c, false⟩ → s1.mq.count c = 0) →
    ∀ l r, s'.log = l ++ .msg c :: r → .cb c false ∉ l := by
  intro as
  induction as with
  | nil => intro s s' _ h _ ho _; cases h; exact ho
  | cons a as ih =>
    intro s s' hi h hw ho hu
    simp only [mrun] at h
    rcases e : mstep g s a with _ | s1
    · rw [e] at h; cases h
    · rw [e] at h
      obtain ⟨k1, k2⟩ := order_step hi e hw ho (fun r ha => hu [] as r s (by simp [ha]) rfl)
      refine ih s1 s' (minv_step hi e) h k1 k2 (fun bs cs r s2 hb h2 => hu (a :: bs) cs r s2 (by simp [hb]) ?_)
      simp only [mrun, e]; exact h2

end PoolMsg
end Salticidae
