import Verif.Lemmas.PoolLoad
import Verif.Lemmas.PoolV3
import Verif.Model.Life
namespace Salticidae
open Pool Spec.Pool

theorem reaches_inv {g : Cfg} {as : List Act} {s : St} (h : Reaches g as s) : AllV1 g s :=
  allV1_run as init s (allV1_init g) h

theorem reaches_v3 {g : Cfg} {as : List Act} {s : St} (h : Reaches g as s) {c : Nat} (hc : c < s.n) : V3 c (view s c) :=
  allV3_run as init s (allV1_init g) (by simp [init]) h c hc

theorem reaches_v2 {g : Cfg} {as : List Act} {s : St} (h : Reaches g as s) (hr : NoRace g as) : AllV2 g s :=
  allV2_run as init s (allV2_init g) hr h

/-! ## C47: a connection is torn down exactly once -/

/-- Whatever the threads do and however often termination is asked for: the teardown hooks of a
connection run at most once, its descriptor is closed at most once (and when it is erased from the pool it
is itself that is erased), and the callback is told `disconnected` at most once; and once everything
asked for has been executed, a connection whose termination was asked for has had each of these exactly once. -/
theorem C47_torn_down_once (g : Cfg) (as : List Act) (s : St) (h : Reaches g as s) (c : Nat) (hc : c < s.n) :
    (s.conn c).wDown ≤ 1 ∧ (s.conn c).dDown ≤ 1 ∧ (s.conn c).closed ≤ 1 ∧ (s.conn c).cbs.count false ≤ 1 ∧ s.ub = false ∧
    (Quiet s → (s.conn c).asked = true →
      (s.conn c).wDown = 1 ∧ (s.conn c).dDown = 1 ∧ (s.conn c).closed = 1 ∧ (s.conn c).cbs.count false = 1 ∧
      ∀ e ∈ s.pool, e.2 ≠ c) := by
  have hi := (reaches_inv h).base
  obtain ⟨h1, h2, h3, h4, h5, h6, h7⟩ := hi.conn c hc
  simp only [reduceCtorEq, if_false, Nat.add_zero] at h1
  have b : (if (s.conn c).term = true then 1 else 0) ≤ 1 := by split <;> omega
  refine ⟨by omega, by omega, by omega, by omega, hi.ub, fun hq ha => ?_⟩
  have ht : (s.conn c).term = true := by
    rcases h6 ha with h | ⟨t, ht, _⟩ | ⟨w, t, hm, _⟩
    · exact h
    · cases ht
    · rw [hq.1 w] at hm; simp at hm
  rw [ht, hq.1 0] at h1
  rw [hq.2] at h4
  rw [ht] at h2
  simp at h1 h2 h4
  refine ⟨h2, by omega, h1, by omega, fun e he hec => ?_⟩
  have := (hi.pool e he).2.1
  rw [hec] at this
  omega

/-- A connection nobody asked to terminate is alive: no hook of its teardown has run, its descriptor is
open and registered in the pool. -/
theorem C47_not_otherwise (g : Cfg) (as : List Act) (s : St) (h : Reaches g as s) (c : Nat) (hc : c < s.n)
    (ha : (s.conn c).asked = false) :
    (s.conn c).wDown = 0 ∧ (s.conn c).dDown = 0 ∧ (s.conn c).closed = 0 ∧ (s.conn c).cbs.count false = 0 ∧
    ((s.conn c).fd, c) ∈ s.pool := by
  have hi := (reaches_inv h).base
  have ht : (s.conn c).term = false := by
    cases e : (s.conn c).term with
    | false => rfl
    | true => have := (reaches_v3 h hc).askd (.inl e); rw [show (view s c).x.asked = false from ha] at this; cases this
  obtain ⟨h1, h2, h3, h4, h5, h6, h7⟩ := hi.conn c hc
  rw [ht] at h1 h2
  simp at h1 h2
  exact ⟨h2, by omega, by omega, by omega, h5 (by omega)⟩

/-- A pool with two workers; a client is accepted, terminated by the user twice and by a worker's error. -/
def poolDemo : List Act := [.accept 7, .exec 0 false, .exec 0 false, .user true, .exec 0 false, .readable 0, .terminate 0,
  .terminate 0, .ioError 0, .exec 0 false, .exec 0 false, .exec 0 false, .exec 0 false, .exec 0 false, .exec 0 false, .user true]

example : ∃ s, Reaches ⟨false, 2⟩ poolDemo s ∧ 0 < s.n ∧ (s.conn 0).asked = true ∧ s.wq 0 = [] ∧ s.wq 1 = [] ∧ s.uq = [] ∧
    (s.conn 0).cbs = [true, false] := by
  refine ⟨_, rfl, ?_⟩; decide

/-! ## C48: connected comes before disconnected -/

/-- The full property. -/
def C48_statement : Prop := ∀ (g : Cfg) (as : List Act) (s : St), Reaches g as s → ∀ c, c < s.n → Ordered (s.conn c).cbs

/-- The user terminates a connection whose attempt is still in progress; the attempt succeeds before the
dispatcher executes the termination. -/
def poolRace : List Act := [.connect 5 true, .terminate 0, .exec 0 false, .connReady 0, .exec 0 false, .user true,
  .exec 0 false, .exec 0 false, .user true]

/-- The code does not have it: `connected` is reported after `disconnected`, for a descriptor that has
been closed. -/
theorem C48_violated : ¬ C48_statement := by
  intro h
  have h1 : ∃ s, Reaches ⟨false, 1⟩ poolRace s ∧ 0 < s.n ∧ (s.conn 0).cbs = [false, true] := by
    refine ⟨_, rfl, ?_⟩; decide
  obtain ⟨s, hs, hn, hcb⟩ := h1
  have := h _ _ s hs 0 hn
  rw [hcb] at this
  simp [Ordered] at this

/-- ... and the worker polls that descriptor. -/
theorem C48_violated_stale : ∃ (g : Cfg) (as : List Act) (s : St), Reaches g as s ∧ (s.conn 0).closed = 1 ∧ (s.conn 0).sock = true ∧
    (s.conn 0).stale = true := by
  refine ⟨⟨false, 1⟩, poolRace, _, rfl, ?_⟩; decide

/-- For every schedule, `connected` is reported at most once. -/
theorem C48_connected_once (g : Cfg) (as : List Act) (s : St) (h : Reaches g as s) (c : Nat) (hc : c < s.n) :
    (s.conn c).cbs.count true ≤ 1 := by
  have h1 := (reaches_v3 h hc).cbsT
  have : (view s c).x = s.conn c := rfl
  rw [this] at h1
  rw [h1]
  cases (s.conn c).verdict <;> simp

/-- The property for every schedule in which no connection attempt completes while the dispatcher has a
termination of that connection waiting.  Missing: the schedules of `C48_violated`. -/
theorem C48_ordered_partial (g : Cfg) (as : List Act) (s : St) (h : Reaches g as s) (hr : NoRace g as) (c : Nat) (hc : c < s.n) :
    Ordered (s.conn c).cbs ∧ (s.conn c).stale = false := by
  have h2 := (reaches_v2 h hr).v2 c hc
  have h1 := (reaches_inv h).v1 c hc
  have h3 := C47_torn_down_once g as s h c hc
  refine ⟨?_, h2.stale⟩
  have hrep := h2.rep
  have htok := h1.tok
  have hk : (view s c).u.count ⟨c, true⟩ + (view s c).x.verdict.isSome.toNat ≤ 1 := by
    rcases e : (view s c).x.worker with _ | w
    · rw [tok_none e] at htok; omega
    · rw [tok_some e] at htok; omega
  have hx : (view s c).x = s.conn c := rfl
  rw [hx] at hrep hk
  have hcl : (s.conn c).closed = 0 ∨ (s.conn c).closed = 1 := by omega
  have hpre : (s.conn c).cbs <+: List.replicate ((view s c).u.count ⟨c, true⟩ + (s.conn c).verdict.isSome.toNat) true ++
      List.replicate (s.conn c).closed false := ⟨_, hrep⟩
  generalize (s.conn c).cbs = l at hpre
  generalize (view s c).u.count ⟨c, true⟩ + (s.conn c).verdict.isSome.toNat = k at hpre hk
  have : k = 0 ∨ k = 1 := by omega
  unfold Ordered
  rcases this with rfl | rfl <;> rcases hcl with hcl | hcl <;> rw [hcl] at hpre <;>
    simp [List.prefix_cons_iff] at hpre <;> grind

instance (g : Cfg) (as : List Act) : Decidable (∀ p ∈ trace g init as, ∀ t ∈ p.1.wq 0, ∀ c ∈ [t.conn], p.2 = .connReady c → t ≠ .dterm c) :=
  inferInstance

/-- A schedule with connects, a refused connect, a termination and no race. -/
def poolQuietDemo : List Act := [.connect 5 true, .connect 6 false, .connReady 0, .exec 0 false, .exec 0 false, .exec 0 false,
  .user true, .user true, .terminate 0, .exec 0 false, .exec 0 false, .exec 0 false, .exec 0 false, .user false]

theorem noRace_of_dec {g : Cfg} {as : List Act}
    (h : ∀ p ∈ trace g init as, ∀ t ∈ p.1.wq 0, ∀ c ∈ [t.conn], p.2 = .connReady c → t ≠ .dterm c) : NoRace g as := by
  intro p hp c ha hm
  exact h p hp _ hm c (by simp [Task.conn]) ha rfl

example : NoRace ⟨false, 1⟩ poolQuietDemo ∧ ∃ s, Reaches ⟨false, 1⟩ poolQuietDemo s ∧ (s.conn 0).cbs = [true, false] ∧
    (s.conn 1).cbs = [false] := by
  refine ⟨noRace_of_dec (by decide), _, rfl, ?_⟩; decide

/-! ## C49: the connection callback gates traffic -/

/-- The full property: data are read from a connection only after the callback approved it, and a
connection it rejected ends up torn down. -/
def C49_statement : Prop := ∀ (g : Cfg) (as : List Act) (s : St), Reaches g as s → ∀ c, c < s.n →
  (0 < (s.conn c).reads → (s.conn c).verdict = some true) ∧
  (Quiet s → (s.conn c).verdict = some false → (s.conn c).closed = 1)

/-- The code does not have it without TLS: the answer `false` is ignored. -/
theorem C49_violated : ¬ C49_statement := by
  intro h
  have h1 : ∃ s, Reaches ⟨false, 1⟩ [.accept 7, .exec 0 false, .exec 0 false, .user false, .exec 0 false, .readable 0] s ∧ 0 < s.n ∧
      (s.conn 0).verdict = some false ∧ 0 < (s.conn 0).reads ∧ (s.conn 0).closed = 0 := by
    refine ⟨_, rfl, ?_⟩; decide
  obtain ⟨s, hs, hn, hv, hr, _⟩ := h1
  have := (h _ _ s hs 0 hn).1 hr
  rw [hv] at this; cases this

/-- With TLS the property holds for every schedule. -/
theorem C49_tls_partial (g : Cfg) (hg : g.tls = true) (as : List Act) (s : St) (h : Reaches g as s) (c : Nat) (hc : c < s.n) :
    (0 < (s.conn c).reads → (s.conn c).verdict = some true) ∧
    (Quiet s → (s.conn c).verdict = some false → (s.conn c).closed = 1) := by
  have h1 := (reaches_inv h).v1 c hc
  refine ⟨fun hr => h1.tlsR hg (.inr hr), fun hq hv => ?_⟩
  have h3 := C47_torn_down_once g as s h c hc
  rcases h1.rej hg hv with ha | ht | ⟨w, hm⟩
  · exact (h3.2.2.2.2.2 hq ha).2.2.1
  · have ha := (reaches_v3 h hc).askd (.inl ht)
    exact (h3.2.2.2.2.2 hq ha).2.2.1
  · have : .approve c false ∈ s.wq w := (List.mem_filter.1 hm).1
    rw [hq.1 w] at this; simp at this

example : ∃ s, Reaches ⟨true, 1⟩ [.accept 7, .exec 0 false, .hsDone 0, .exec 0 false, .user false, .exec 0 false, .exec 0 false, .exec 0 false,
    .user true] s ∧ 0 < s.n ∧ (s.conn 0).verdict = some false ∧ s.wq 0 = [] ∧ s.uq = [] ∧ (s.conn 0).closed = 1 := by
  refine ⟨_, rfl, ?_⟩; decide

/-- Without TLS, nothing is read before the callback has been called.  Missing: its answer has no effect. -/
theorem C49_plain_partial (g : Cfg) (hg : g.tls = false) (as : List Act) (s : St) (h : Reaches g as s) (c : Nat) (hc : c < s.n) :
    0 < (s.conn c).reads → true ∈ (s.conn c).cbs := by
  intro hr
  have h1 := ((reaches_inv h).v1 c hc).ntls hg
  have h2 := h1.2 (.inr (.inr hr))
  have h3 := (reaches_v3 h hc).cbsT
  have hx : (view s c).x = s.conn c := rfl
  rw [hx] at h2 h3
  apply List.count_pos_iff.1
  rw [h3]
  cases e : (s.conn c).verdict with
  | none => exact absurd e h2
  | some r => simp

example : ∃ s, Reaches ⟨false, 1⟩ [.accept 7, .exec 0 false, .exec 0 false, .user true, .exec 0 false, .readable 0] s ∧ 0 < s.n ∧
    0 < (s.conn 0).reads := by
  refine ⟨_, rfl, ?_⟩; decide

/-! ## C50: new connections go to a least-loaded worker -/

/-- The full property: a new connection is given to one of the workers that serve the fewest connections. -/
def C50_statement : Prop := ∀ (g : Cfg) (as : List Act) (s s' : St), 0 < g.nw → Reaches g as s → s.n < 18446744073709551616 →
  (∀ fd, step g s (.accept fd) = some s' →
    ∃ w, (s'.conn s.n).worker = some w ∧ w < g.nw ∧ ∀ i, i < g.nw → served s w ≤ served s i) ∧
  (∀ c, step g s (.connReady c) = some s' →
    ∃ w, (s'.conn c).worker = some w ∧ w < g.nw ∧ ∀ i, i < g.nw → served s w ≤ served s i)

/-- The code does not have it: after the race of `C48_violated` a worker's counter has gone below zero (to
2^64 - 1) and the worker is passed over for one that serves more connections. -/
theorem C50_violated : ¬ C50_statement := by
  intro h
  have h1 : ∃ s s', Reaches ⟨false, 2⟩ [.connect 5 true, .terminate 0, .exec 0 false, .connReady 0, .exec 0 false, .accept 6, .exec 1 false] s ∧
      step ⟨false, 2⟩ s (.accept 7) = some s' ∧ s.n = 2 ∧ (s'.conn s.n).worker = some 1 ∧ served s 1 = 1 ∧ served s 0 = 0 := by
    refine ⟨_, _, rfl, rfl, ?_⟩; decide
  obtain ⟨s, s', hs, hst, hn, hw, h1, h0⟩ := h1
  obtain ⟨w, hw', hlt, hmin⟩ := (h _ _ s s' (by decide) hs (by omega)).1 7 hst
  rw [hw] at hw'
  cases hw'
  have := hmin 0 (by decide)
  omega

/-- Worker counters equal the number of connections each worker serves, and new connections go to a worker
that serves the fewest, for every number of workers and every schedule without that race.
Missing: schedules with it. -/
theorem C50_least_loaded_partial (g : Cfg) (hnw : 0 < g.nw) (as : List Act) (s s' : St) (h : Reaches g as s) (hr : NoRace g as)
    (hn : s.n < 18446744073709551616) :
    (∀ w, s.nconn w = (served s w : Int)) ∧
    (∀ fd, step g s (.accept fd) = some s' →
      ∃ w, (s'.conn s.n).worker = some w ∧ w < g.nw ∧ ∀ i, i < g.nw → served s w ≤ served s i) ∧
    (∀ c, step g s (.connReady c) = some s' →
      ∃ w, (s'.conn c).worker = some w ∧ w < g.nw ∧ ∀ i, i < g.nw → served s w ≤ served s i) := by
  have hl := (reaches_v2 h hr).load
  have hle : ∀ w, served s w ≤ s.n := by
    intro w; unfold served
    have := List.countP_le_length (p := Serves s w) (l := List.range s.n)
    simpa using this
  have hloads : ∀ w, loads s w = (served s w : Int) := by
    intro w; unfold loads; rw [hl w]
    have := hle w
    exact Int.emod_eq_of_lt (by omega) (by omega)
  obtain ⟨k1, k2⟩ := selectWorker_spec hnw (loads s)
  have k3 : ∀ i, i < g.nw → served s (selectWorker g.nw (loads s)) ≤ served s i := by
    intro i hi
    have := k2 i hi
    rw [hloads, hloads] at this
    omega
  refine ⟨hl, fun fd hst => ⟨_, ?_, k1, k3⟩, fun c hst => ⟨_, ?_, k1, k3⟩⟩
  · simp only [step] at hst
    split at hst <;> cases hst
    simp [post]
  · simp only [step] at hst
    split at hst <;> cases hst
    simp [post, setConn]

example : ∃ s s', Reaches ⟨false, 3⟩ [.accept 5, .exec 0 false, .accept 6, .exec 1 false] s ∧
    NoRace ⟨false, 3⟩ [.accept 5, .exec 0 false, .accept 6, .exec 1 false] ∧
    step ⟨false, 3⟩ s (.accept 9) = some s' ∧ (s'.conn 2).worker = some 2 := by
  refine ⟨_, _, rfl, noRace_of_dec (by decide), rfl, ?_⟩; decide

/-! ## C51: a listening pool keeps accepting -/

/-- The full property: whatever happened before, the next client (whatever descriptor it gets) is accepted. -/
def C51_statement : Prop := ∀ (g : Cfg) (as : List Act) (s : St) (fd : Nat), Reaches g as s → freshFd s fd = true →
  (step g s (.accept fd)).isSome = true

/-- The code does not have it: one failure of accept() ends listening, for good unless listen() is called again. -/
theorem C51_violated : ¬ C51_statement := by
  intro h
  have := h ⟨false, 1⟩ [.acceptFail] { init with listening := false } 7 rfl (by decide)
  simp [step] at this

theorem listening_step {g : Cfg} {s s' : St} {a : Act} (h : step g s a = some s') :
    a = .listen ∨ (a = .acceptFail ∧ s'.listening = false) ∨ s'.listening = s.listening := by
  have hd : ∀ (s : St) (c : Nat), (dispTerminate s c).listening = s.listening := by
    intro s c; unfold dispTerminate workerTerminate; split <;> (try split) <;> rfl
  have hw : ∀ (s : St) (c : Nat), (workerTerminate s c).listening = s.listening := by
    intro s c; unfold workerTerminate; split <;> rfl
  cases a <;> simp only [step] at h
  case listen => exact .inl rfl
  case acceptFail => split at h <;> cases h; exact .inr (.inl ⟨rfl, rfl⟩)
  case exec w f =>
    right; right
    split at h <;> cases h
    rename_i t ts _
    cases t <;> simp only [execTask, feed] <;> (repeat' split) <;> (try rw [hd]) <;> (try rw [hw]) <;> rfl
  case user r =>
    right; right
    split at h <;> cases h
    split <;> (try split) <;> rfl
  case connect fd ok => right; right; split at h <;> cases h; cases ok <;> simp [hd]
  case connFail => right; right; split at h <;> cases h; rw [hd]; rfl
  case ioError => right; right; split at h <;> cases h; rw [hw]
  case readable => right; right; split at h <;> cases h; split <;> rfl
  all_goals (right; right; split at h <;> cases h; rfl)

theorem listening_run {g : Cfg} : ∀ (as : List Act) (s s' : St), s.listening = false → .listen ∉ as → run g s as = some s' →
    s'.listening = false := by
  intro as
  induction as with
  | nil => intro s s' h _ hr; cases hr; exact h
  | cons a as ih =>
    intro s s' h hl hr
    simp only [run] at hr
    rcases e : step g s a with _ | s1
    · rw [e] at hr; cases hr
    · rw [e] at hr
      refine ih s1 s' ?_ (fun hm => hl (List.mem_cons_of_mem _ hm)) hr
      have hne : a ≠ .listen := fun e => hl (by rw [e]; simp)
      rcases listening_step e with h' | h'
      · exact absurd h' hne
      · rcases h' with h' | h'
        · exact h'.2
        · rw [h']; exact h

/-- After a failed accept no client is accepted any more, whatever happens, unless the program calls listen again. -/
theorem C51_violated_forever (g : Cfg) (as bs : List Act) (s s' : St) (h : run g init (as ++ [.acceptFail]) = some s)
    (hb : .listen ∉ bs) (h' : run g s bs = some s') (fd : Nat) : step g s' (.accept fd) = none := by
  have h0 : s.listening = false := by
    have : ∀ (as : List Act) (s0 : St), run g s0 (as ++ [.acceptFail]) = some s → s.listening = false := by
      intro as
      induction as with
      | nil =>
        intro s0 h
        simp only [List.nil_append, run, step] at h
        split at h
        · simp at h; subst h; rfl
        · simp at h
      | cons a as ih =>
        intro s0 h
        simp only [List.cons_append, run] at h
        rcases e : step g s0 a with _ | s1
        · rw [e] at h; cases h
        · rw [e] at h; exact ih s1 h
    exact this as init h
  have := listening_run bs s s' h0 hb h'
  simp [step, this]

/-- As long as accept() does not fail, every client is accepted.  Missing: survival of a failure. -/
theorem C51_accepts_partial (g : Cfg) (as : List Act) (s : St) (fd : Nat) (h : Reaches g as s) (hf : .acceptFail ∉ as)
    (hfd : freshFd s fd = true) : (step g s (.accept fd)).isSome = true := by
  have : ∀ (as : List Act) (s0 : St), s0.listening = true → .acceptFail ∉ as → run g s0 as = some s → s.listening = true := by
    intro as
    induction as with
    | nil => intro s0 h _ hr; cases hr; exact h
    | cons a as ih =>
      intro s0 h hl hr
      simp only [run] at hr
      rcases e : step g s0 a with _ | s1
      · rw [e] at hr; cases hr
      · rw [e] at hr
        refine ih s1 ?_ (fun hm => hl (List.mem_cons_of_mem _ hm)) hr
        have hne : a ≠ .acceptFail := fun e => hl (by rw [e]; simp)
        rcases listening_step e with h' | h' | h'
        · subst h'; simp only [step] at e; cases e; rfl
        · exact absurd h'.1 hne
        · rw [h']; exact h
  have := this as init rfl hf h
  simp [step, this, hfd]

example : ∃ s, Reaches ⟨false, 1⟩ poolDemo s ∧ .acceptFail ∉ poolDemo ∧ freshFd s 7 = true := by
  refine ⟨_, rfl, ?_⟩; decide

/-! ## C52: asynchronous operation ids -/

/-- No operation gets the id -1 (used for errors that belong to no operation); ids are in 0..65535. -/
theorem C52_never_minus_one (ctr : BitVec 16) (n : Nat) : ∀ id ∈ asyncIds ctr n, 0 ≤ id ∧ id ≤ 65535 ∧ id ≠ -1 := by
  induction n generalizing ctr with
  | zero => simp [asyncIds]
  | succ n ih =>
    intro id hid
    rcases List.mem_cons.1 hid with h | h
    · subst h
      have := ctr.isLt
      simp only [genAsyncId]; omega
    · exact ih _ id h

/-- The full property: an error reported with the id of operation `i` belongs to operation `i`. -/
def C52_statement : Prop := ∀ (ctr : BitVec 16) (fs : List Bool) (i : Nat) (hi : i < (asyncIds ctr fs.length).length),
  ∀ e ∈ asyncErrors ctr 0 fs, e.2 = (asyncIds ctr fs.length)[i] → e.1 = i

theorem asyncIds_length (ctr : BitVec 16) (n : Nat) : (asyncIds ctr n).length = n := by
  induction n generalizing ctr with
  | zero => rfl
  | succ n ih => simp [asyncIds, ih]

theorem asyncIds_get (ctr : BitVec 16) (n i : Nat) (h : i < (asyncIds ctr n).length) :
    (asyncIds ctr n)[i] = (((ctr.toNat + i) % 65536 : Nat) : Int) := by
  induction n generalizing ctr i with
  | zero => simp [asyncIds] at h
  | succ n ih =>
    cases i with
    | zero => have := ctr.isLt; simp [asyncIds, genAsyncId]; omega
    | succ i =>
      simp only [asyncIds, genAsyncId, List.getElem_cons_succ]
      rw [ih]
      congr 1
      have : (ctr + 1).toNat = (ctr.toNat + 1) % 65536 := by simp [BitVec.toNat_add]
      rw [this]; omega

theorem asyncErrors_mem (ctr : BitVec 16) (k : Nat) (fs : List Bool) (e : Nat × Int) (he : e ∈ asyncErrors ctr k fs) :
    k ≤ e.1 ∧ e.1 < k + fs.length ∧ e.2 = (((ctr.toNat + (e.1 - k)) % 65536 : Nat) : Int) ∧ fs[e.1 - k]? = some true := by
  induction fs generalizing ctr k with
  | nil => simp [asyncErrors] at he
  | cons f fs ih =>
    have key : e ∈ asyncErrors (ctr + 1) (k + 1) fs → k ≤ e.1 ∧ e.1 < k + (f :: fs).length ∧
        e.2 = (((ctr.toNat + (e.1 - k)) % 65536 : Nat) : Int) ∧ (f :: fs)[e.1 - k]? = some true := by
      intro h
      obtain ⟨h1, h2, h3, h4⟩ := ih _ _ h
      refine ⟨by omega, by simp only [List.length_cons]; omega, ?_, ?_⟩
      · rw [h3]
        congr 1
        have : (ctr + 1).toNat = (ctr.toNat + 1) % 65536 := by simp [BitVec.toNat_add]
        rw [this]; omega
      · have : e.1 - k = (e.1 - (k + 1)) + 1 := by omega
        rw [this, List.getElem?_cons_succ]; exact h4
    simp only [asyncErrors, genAsyncId] at he
    cases f with
    | false => simp only [Bool.false_eq_true, if_false] at he; exact key he
    | true =>
      simp only [if_true] at he
      rcases List.mem_cons.1 he with h | h
      · subst h
        have := ctr.isLt
        refine ⟨Nat.le_refl _, by simp, ?_, by simp⟩
        simp; omega
      · exact key h

/-- The code does not have it: ids repeat after 65536 operations, so a failure of operation 65536 is
reported with the id of operation 0. -/
theorem C52_violated : ¬ C52_statement := by
  intro h
  have hlen : (List.replicate 65536 false ++ [true]).length = 65537 := by
    rw [List.length_append, List.length_replicate]; rfl
  have hmem : ∀ (n : Nat) (ctr : BitVec 16) (k : Nat),
      (k + n, (((ctr.toNat + n) % 65536 : Nat) : Int)) ∈ asyncErrors ctr k (List.replicate n false ++ [true]) := by
    intro n
    induction n with
    | zero => intro ctr k; have := ctr.isLt; simp [asyncErrors, genAsyncId]; omega
    | succ n ih =>
      intro ctr k
      have := ih (ctr + 1) (k + 1)
      have e : (ctr + 1).toNat = (ctr.toNat + 1) % 65536 := by simp [BitVec.toNat_add]
      rw [e] at this
      simp only [List.replicate_succ, List.cons_append, asyncErrors, genAsyncId, Bool.false_eq_true, if_false]
      have e2 : k + (n + 1) = k + 1 + n := by omega
      have e3 : (ctr.toNat + (n + 1)) % 65536 = ((ctr.toNat + 1) % 65536 + n) % 65536 := by omega
      rw [e2, e3]; exact this
  have hm := hmem 65536 0#16 0
  have hi : 0 < (asyncIds 0#16 (List.replicate 65536 false ++ [true]).length).length := by
    rw [asyncIds_length, hlen]; omega
  have := h 0#16 (List.replicate 65536 false ++ [true]) 0 hi _ hm
  rw [asyncIds_get] at this
  have h2 := this (by simp)
  simp at h2

/-- Among any 65536 consecutive operations of any number, an error reported with the id of one of them
belongs to it, and every failure is reported.  Missing: longer histories. -/
theorem C52_identifies_partial (ctr : BitVec 16) (fs : List Bool) (i : Nat) (hi : i < (asyncIds ctr fs.length).length) :
    (∀ e ∈ asyncErrors ctr 0 fs, e.2 = (asyncIds ctr fs.length)[i] → e.1 < i + 65536 → i < e.1 + 65536 → e.1 = i) ∧
    (∀ j id, (j, id) ∈ asyncErrors ctr 0 fs → fs[j]? = some true) := by
  constructor
  · intro e he heq h1 h2
    obtain ⟨_, _, h3, _⟩ := asyncErrors_mem ctr 0 fs e he
    rw [asyncIds_get, h3] at heq
    simp at heq
    omega
  · intro j id hm
    have := (asyncErrors_mem ctr 0 fs (j, id) hm).2.2.2
    simpa using this

example : asyncIds 65534#16 4 = [65534, 65535, 0, 1] ∧ asyncErrors 65534#16 0 [false, true, false, true] = [(1, 65535), (3, 1)] := by
  decide

/-! ## C71: stopping a pool -/

theorem lrun_inv {g : Cfg} : ∀ (as : List LAct) (l l' : Life),
    (l.sys = 0 ∧ l.starts = 0 ∧ l.stops = 0 ∨ l.sys = 1 ∧ l.starts = 1 ∧ l.stops = 0 ∨ l.sys = 2 ∧ l.starts = 1 ∧ l.stops = 1) →
    (l.sys ≠ 2 → ∃ as, Reaches g as l.st) → (l.sys = 2 → ∃ as s, Reaches g as s ∧ l.st = finalize s) → lrun g l as = some l' →
    (l'.sys = 0 ∧ l'.starts = 0 ∧ l'.stops = 0 ∨ l'.sys = 1 ∧ l'.starts = 1 ∧ l'.stops = 0 ∨ l'.sys = 2 ∧ l'.starts = 1 ∧ l'.stops = 1) ∧
    (l'.sys ≠ 2 → ∃ as, Reaches g as l'.st) ∧ (l'.sys = 2 → ∃ as s, Reaches g as s ∧ l'.st = finalize s) := by
  intro as
  induction as with
  | nil => intro l l' h1 h2 h3 h; cases h; exact ⟨h1, h2, h3⟩
  | cons a as ih =>
    intro l l' h1 h2 h3 h
    simp only [lrun] at h
    rcases e : lstep g l a with _ | l1
    · rw [e] at h; cases h
    · rw [e] at h
      cases a with
      | start =>
        simp only [lstep] at e
        cases e
        by_cases hs : l.sys = 0
        · rw [if_pos hs] at h
          refine ih _ l' ?_ ?_ ?_ h
          · right; left; simp; omega
          · intro _; exact h2 (by omega)
          · simp
        · rw [if_neg hs] at h
          exact ih _ l' h1 h2 h3 h
      | stop =>
        simp only [lstep] at e
        cases e
        by_cases hs : l.sys = 1
        · rw [if_pos hs] at h
          refine ih _ l' ?_ ?_ ?_ h
          · right; right; simp; omega
          · simp
          · intro _
            obtain ⟨as, hr⟩ := h2 (by omega)
            exact ⟨as, l.st, hr, rfl⟩
        · rw [if_neg hs] at h
          exact ih _ l' h1 h2 h3 h
      | act a =>
        simp only [lstep] at e
        split at e
        · rename_i hs
          rcases e2 : step g l.st a with _ | s1
          · rw [e2] at e; cases e
          · rw [e2] at e
            simp only [Option.map_some, Option.some.injEq] at e
            subst e
            refine ih { l with st := s1 } l' h1 ?_ ?_ h
            · intro _
              obtain ⟨as, hr⟩ := h2 (by omega)
              refine ⟨as ++ [a], ?_⟩
              have : ∀ (as : List Act) (s0 : St), run g s0 as = some l.st → run g s0 (as ++ [a]) = some s1 := by
                intro as
                induction as with
                | nil => intro s0 h; cases h; simp [run, e2]
                | cons b as ih =>
                  intro s0 h
                  simp only [run, List.cons_append] at h ⊢
                  rcases e3 : step g s0 b with _ | s2
                  · rw [e3] at h; cases h
                  · rw [e3] at h; exact ih s2 h
              exact this as init hr
            · intro h; have : l.sys = 2 := h; omega
        · cases e

theorem life_inv {g : Cfg} {as : List LAct} {l : Life} (h : lrun g Life.init as = some l) :
    (l.sys = 0 ∧ l.starts = 0 ∧ l.stops = 0 ∨ l.sys = 1 ∧ l.starts = 1 ∧ l.stops = 0 ∨ l.sys = 2 ∧ l.starts = 1 ∧ l.stops = 1) ∧
    (l.sys ≠ 2 → ∃ as, Reaches g as l.st) ∧ (l.sys = 2 → ∃ as s, Reaches g as s ∧ l.st = finalize s) :=
  lrun_inv (g := g) as Life.init l (.inl ⟨rfl, rfl, rfl⟩) (fun _ => ⟨[], rfl⟩) (by simp [Life.init]) h

/-- The lifecycle is one-way: whatever calls are made in whatever order, the threads are started at most once
and stopped at most once; in a stopped pool nothing happens any more, and neither start nor stop changes it. -/
theorem C71_one_way (g : Cfg) (as : List LAct) (l : Life) (h : lrun g Life.init as = some l) :
    l.starts ≤ 1 ∧ l.stops ≤ l.starts ∧
    (l.stops = 1 → lstep g l .start = some l ∧ lstep g l .stop = some l ∧ ∀ a, lstep g l (.act a) = none) ∧
    (l.starts = 0 → lstep g l .stop = some l) ∧
    (l.starts = 1 → lstep g l .start = some l) := by
  obtain ⟨h1, _, _⟩ := life_inv h
  rcases h1 with ⟨a, b, c⟩ | ⟨a, b, c⟩ | ⟨a, b, c⟩ <;> simp [lstep, a, b, c]

/-- The full property of stop: every connection the pool ever had has been torn down once. -/
def C71_statement : Prop := ∀ (g : Cfg) (as : List LAct) (l : Life), lrun g Life.init as = some l → l.stops = 1 → ∀ c, c < l.st.n →
  (l.st.conn c).wDown = 1 ∧ (l.st.conn c).dDown = 1 ∧ (l.st.conn c).closed = 1

/-- The code does not have it: a connection whose worker has torn it down, but which the dispatcher has not
yet deleted when it is stopped, is torn down again. -/
theorem C71_violated : ¬ C71_statement := by
  intro h
  have h1 : ∃ l, lrun ⟨false, 1⟩ Life.init [.start, .act (.accept 7), .act (.exec 0 false), .act (.terminate 0), .act (.exec 0 false), .act (.exec 0 false),
      .act (.exec 0 false), .stop] = some l ∧ l.stops = 1 ∧ 0 < l.st.n ∧ (l.st.conn 0).wDown = 2 := by
    refine ⟨_, rfl, ?_⟩; decide
  obtain ⟨l, hl, hs, hn, hw⟩ := h1
  have := (h _ _ l hl hs 0 hn).1
  omega

/-- After stop every connection has been closed exactly once and its dispatcher hook has run exactly once;
its worker hook has run at least once, and exactly once unless its termination was in progress.
Missing: the worker hook runs twice in that case. -/
theorem C71_all_closed_partial (g : Cfg) (as : List LAct) (l : Life) (h : lrun g Life.init as = some l) (hs : l.stops = 1) (c : Nat)
    (hc : c < l.st.n) : (l.st.conn c).closed = 1 ∧ (l.st.conn c).dDown = 1 ∧ 1 ≤ (l.st.conn c).wDown ∧ (l.st.conn c).wDown ≤ 2 ∧
    ((l.st.conn c).asked = false → (l.st.conn c).wDown = 1) ∧ (l.st.conn c).term = true := by
  obtain ⟨h1, _, h3⟩ := life_inv h
  have hsys : l.sys = 2 := by omega
  obtain ⟨bs, s, hr, hst⟩ := h3 hsys
  have hi := (reaches_inv hr).base
  have hcs : c < s.n := by rw [hst, finalize_n] at hc; exact hc
  rw [hst, finalize_conn hi hcs]
  obtain ⟨k1, k2, k3, k4, k5, k6, k7⟩ := hi.conn c hcs
  simp only [reduceCtorEq, if_false, Nat.add_zero] at k1
  have b : (if (s.conn c).term = true then 1 else 0) ≤ 1 := by split <;> omega
  by_cases e : (s.conn c).closed = 0
  · rw [if_pos e]
    refine ⟨by simp [tdConn, e], by simp [tdConn]; omega, by simp [tdConn], by simp [tdConn]; omega, fun ha => ?_, rfl⟩
    have := (C47_not_otherwise g bs s hr c hcs ha).1
    simp [tdConn, this]
  · rw [if_neg e]
    have ht : (s.conn c).term = true := by
      cases e2 : (s.conn c).term with
      | true => rfl
      | false => rw [e2] at k1; simp at k1; omega
    rw [ht] at k1 k2
    simp at k1 k2
    refine ⟨by omega, by omega, by omega, by omega, fun _ => k2, ht⟩

example : ∃ l, lrun ⟨true, 2⟩ Life.init [.start, .start, .act (.accept 7), .act (.exec 0 false), .act (.connect 8 true), .stop, .stop] = some l ∧
    l.stops = 1 ∧ l.st.n = 2 := ⟨_, rfl, by decide⟩

end Salticidae
