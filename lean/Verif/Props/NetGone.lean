import Verif.Lemmas.NetGone
/-!
C124: the destruction of a network.
-/
namespace Salticidae
open NetGone Spec.NetGone

/-- C124: whatever its threads are doing when a network is destroyed, no part of it is used after it was destroyed. -/
def C124_statement : Prop :=
  ∀ (k : Kind) (n : Nat) (acts : List Act) (s : NetGone.St), run k n (init k) acts = some s → ∀ l, Clean l s.log

/-- A ClientNetwork is started and destroyed: its table of clients is gone, and a thread looks a client up in it. -/
def NetGone.clientRun : List Act := [.start, .destroy, .direct 0, .go, .use 0]

theorem NetGone.clientRun_log : (run .client 1 (init .client) clientRun).map (·.log) = some [.gone .top, .use (some 0) .top] := by decide +kernel

/-- A ClientNetwork that is destroyed while it runs: its own members go first, and the threads are stopped after that. -/
theorem C124_violated : ¬ C124_statement := by
  intro h
  obtain ⟨s, hs, hl⟩ := Option.map_eq_some_iff.mp NetGone.clientRun_log
  exact h .client 1 _ s hs .top [] [.use (some 0) .top] (by rw [hl]; rfl) (some 0) (by simp)

/-- Also when the thread had begun what it does before the destructor was called: here with a virtual function of ClientNetwork. -/
theorem C124_violated_virtual : ∃ acts s, run .client 1 (init .client) acts = some s ∧ (∀ i, .direct i ∉ acts) ∧ ¬ Clean .top s.log := by
  have e : (run .client 1 (init .client) [.start, .virt 0, .destroy, .go, .use 0]).map (·.log) = some [.gone .top, .use (some 0) .top] := by decide +kernel
  obtain ⟨s, hs, hl⟩ := Option.map_eq_some_iff.mp e
  exact ⟨_, s, hs, by simp, fun h => h [] [.use (some 0) .top] (by rw [hl]; rfl) (some 0) (by simp)⟩

/-- MsgNetwork and PeerNetwork, running or not: every schedule, any number of workers.  Missing: ClientNetwork. -/
theorem C124_msg_peer_partial {k : Kind} {n : Nat} {acts : List Act} {s : NetGone.St} (hk : k ≠ .client) (h : run k n (init k) acts = some s) (l : Layer) : Clean l s.log :=
  (inv_run h (fun _ _ _ _ _ e => absurd e hk)).1.clean

/-- Of a ClientNetwork, the parts it has from MsgNetwork and ConnPool.  Missing: its own. -/
theorem C124_base_partial {k : Kind} {n : Nat} {acts : List Act} {s : NetGone.St} (h : run k n (init k) acts = some s) {l : Layer} (hl : l ≠ .top) : Clean l s.log :=
  (inv_run h (fun _ _ _ _ _ _ e => absurd e hl)).1.clean

/-- What a step does to the state of the system. -/
theorem NetGone.sys_step {k : Kind} {n : Nat} {a : Act} {s s' : NetGone.St} (h1 : step k n s a = some s') : s'.sys = s.sys ∨ (s.sys = 0 ∧ a = .start ∧ s'.sys = 1) ∨ (s.sys = 1 ∧ s'.sys = 2) := by
  cases a <;> simp only [step, job] at h1
  case go =>
    cases ht : s.todo with
    | nil => rw [ht] at h1; cases h1
    | cons x q =>
      rw [ht] at h1
      cases x <;> simp only [goStep] at h1
      case join i => split at h1 <;> cases h1; exact .inl rfl
      case enter =>
        split at h1 <;> cases h1
        · exact .inr (.inr ⟨‹_›, rfl⟩)
        · exact .inl rfl
      all_goals (cases h1; exact .inl rfl)
  case start =>
    by_cases e : s.todo = [] ∧ s.destroyed = false <;> simp only [e, and_self, if_true, if_false] at h1
    · by_cases e0 : s.sys = 0 <;> simp only [e0, if_true, if_false] at h1 <;> cases h1
      · exact .inr (.inl ⟨e0, rfl, rfl⟩)
      · exact .inl rfl
    · cases h1
  all_goals (repeat' split at h1) <;> first | (cases h1; done) | (cases h1; exact .inl rfl)

/-- Once it is stopped, or just about to be, it is not running again. -/
theorem NetGone.stopping {k : Kind} {n : Nat} : ∀ {acts : List Act} {s s' : NetGone.St}, s.sys = 2 ∨ (s.sys = 1 ∧ s.todo = [.enter]) → run k n s acts = some s' → s'.sys = 2 ∨ (s'.sys = 1 ∧ s'.todo = [.enter])
  | [], s, s', h, hr => by cases hr; exact h
  | a :: as, s, s', h, hr => by
    simp only [run, Option.bind_eq_some_iff] at hr
    obtain ⟨u, h1, h2⟩ := hr
    refine NetGone.stopping ?_ h2
    rcases NetGone.sys_step h1 with e | ⟨e, _⟩ | ⟨_, e⟩
    · rcases h with h | ⟨h, ht⟩
      · exact .inl (e.trans h)
      · right
        refine ⟨e.trans h, ?_⟩
        cases a <;> simp only [step, job, ht] at h1
        case go =>
          simp only [goStep, h, if_true] at h1
          cases h1
          rw [h] at e; cases e
        case start => simp at h1
        case stop => simp at h1
        case destroy => simp at h1
        all_goals (repeat' split at h1) <;> first | (cases h1; done) | (cases h1; rfl)
    · omega
    · exact .inl e

/-- A network that was started, and one that was not. -/
theorem NetGone.started {k : Kind} {n : Nat} : ∀ {acts : List Act} {s s' : NetGone.St}, s.sys ≤ 2 → run k n s acts = some s' → s'.sys ≤ 2 ∧ (0 < s.sys ∨ .start ∈ acts → 0 < s'.sys) ∧ (s.sys = 0 → .start ∉ acts → s'.sys = 0)
  | [], s, s', h, hr => by cases hr; exact ⟨h, by simp, fun h _ => h⟩
  | a :: as, s, s', h, hr => by
    simp only [run, Option.bind_eq_some_iff] at hr
    obtain ⟨u, h1, h2⟩ := hr
    have e := NetGone.sys_step h1
    obtain ⟨i1, i2, i3⟩ := NetGone.started (by omega) h2
    refine ⟨i1, fun hp => i2 ?_, fun h0 hn => i3 ?_ (fun h => hn (by simp [h]))⟩
    · rcases hp with hp | hp
      · left; omega
      · rcases List.mem_cons.mp hp with rfl | hp
        · left
          simp only [step] at h1
          split at h1
          · split at h1 <;> cases h1
            · exact Nat.one_pos
            · omega
          · cases h1
        · exact .inr hp
    · rcases e with e | ⟨_, e, _⟩ | ⟨e, _⟩
      · omega
      · subst e; simp at hn
      · omega

/-- Every kind of network, when the program stops what it has started before it destroys it.  Missing: ClientNetwork destroyed while it runs. -/
theorem C124_stopped_partial {k : Kind} {n : Nat} {acts : List Act} {s : NetGone.St} (hp : StopsFirst acts) (h : run k n (init k) acts = some s) (l : Layer) : Clean l s.log := by
  refine (inv_run h (fun as bs u e hu _ _ => ?_)).1.clean
  have h0 := NetGone.started (Nat.zero_le 2 : (init k).sys ≤ 2) hu
  by_cases hs : .start ∈ as
  · obtain ⟨x, y, e2, hx⟩ := hp as bs e hs
    rw [e2, run_append] at hu
    obtain ⟨v, hv, hu⟩ := Option.bind_eq_some_iff.mp hu
    have hv2 := NetGone.started (Nat.zero_le 2 : (init k).sys ≤ 2) hv
    have hv3 := hv2.2.1 (.inr hx)
    simp only [run, Option.bind_eq_some_iff] at hu
    obtain ⟨w, hw, hu⟩ := hu
    have hw2 : w.sys = 2 ∨ (w.sys = 1 ∧ w.todo = [.enter]) := by
      simp only [step] at hw
      split at hw <;> cases hw
      have : v.sys = 1 ∨ v.sys = 2 := by omega
      rcases this with e | e
      · exact .inr ⟨e, rfl⟩
      · exact .inl e
    rcases NetGone.stopping hw2 hu with r | ⟨_, r⟩
    · omega
    · rw [e, run_append] at h
      obtain ⟨u', hu', h⟩ := Option.bind_eq_some_iff.mp h
      rw [e2, run_append, hv] at hu'
      simp only [Option.bind_some, run, hw, hu] at hu'
      cases hu'
      simp [run, step, r] at h
  · have := h0.2.2 rfl hs
    omega

/-- When the destructor returns, no thread of the network is running: whatever the network was doing, for any number of workers. -/
theorem C124_joined {k : Kind} {n : Nat} {acts : List Act} {s : NetGone.St} (h : run k n (init k) acts = some s) (hr : .returned ∈ s.log) (i : Nat) : (s.th i).running = false := by
  exact ((inv_run h (l := .pool) (fun _ _ _ _ _ _ e => (nomatch e))).1.dead ((last_run (last_init k) h).log hr)).1 i

/-- stop() and the destructor never hang: whatever the network and its threads are doing, the threads need only end the jobs they have begun for the call to return; and when it was the
destructor, no thread is left. -/
theorem C124_returns {k : Kind} {n : Nat} {acts : List Act} {s : NetGone.St} (h : run k n (init k) acts = some s) :
    ∃ more s', NoNewJob more ∧ run k n s more = some s' ∧ s'.todo = [] ∧ (s'.destroyed = true → .returned ∈ s'.log ∧ ∀ i, (s'.th i).running = false) := by
  obtain ⟨more, s', h1, h2, h3, h4⟩ := returns (k := k) (n := n) _ rfl (ends_run (ends_init k) h)
  refine ⟨more, s', h1, h2, h4, fun hd => ?_⟩
  have hr : .returned ∈ s'.log := (h3.last hd).resolve_left (by rw [h4]; simp)
  refine ⟨hr, C124_joined (k := k) (n := n) (acts := acts ++ more) ?_ hr⟩
  rw [run_append, h]; exact h2

/-- Two workers of a PeerNetwork, the dispatcher with a job, when it is destroyed: the whole of the destructor. -/
def NetGone.peerRun : List Act :=
  [.start, .direct 0, .virt 1, .use 0, .destroy, .go, .go, .use 0, .use 1, .use 0, .exit 0, .go, .go, .use 1, .use 1, .exit 1, .go, .go, .go, .go, .go, .go, .go, .go, .go, .go]

example : (run .peer 2 (init .peer) NetGone.peerRun).map (·.log) =
    some [.use (some 0) .top, .use (some 0) .msg, .use (some 1) .top, .use (some 0) .pool, .use (some 1) .msg, .use (some 1) .pool,
      .use none .top, .use none .msg, .use none .pool, .gone .top, .gone .msg, .gone .pool, .returned] := by decide +kernel

/-- A ClientNetwork that is stopped first. -/
def NetGone.stoppedRun : List Act :=
  [.start, .direct 0, .stop, .go, .go, .use 0, .use 0, .use 0, .exit 0, .go, .go, .destroy, .go, .go, .go, .go, .go, .go, .go, .go]

example : (run .client 1 (init .client) NetGone.stoppedRun).map (·.log) =
    some [.use (some 0) .top, .use (some 0) .msg, .use (some 0) .pool, .use none .top, .use none .msg, .use none .pool, .gone .top, .gone .msg, .gone .pool, .returned] := by decide +kernel

theorem NetGone.stoppedRun_stops : StopsFirst NetGone.stoppedRun := by
  intro as bs e hs
  have h1 : as.length = 11 := by
    have h2 : NetGone.stoppedRun[as.length]? = some .destroy := by rw [e]; simp
    have h3 : as.length < NetGone.stoppedRun.length := by rw [e]; simp
    have h4 : ∀ i : Fin NetGone.stoppedRun.length, NetGone.stoppedRun[i.1]? = some .destroy → i.1 = 11 := by decide +kernel
    exact h4 ⟨_, h3⟩ h2
  have h5 : as = NetGone.stoppedRun.take 11 := by rw [e, ← h1]; simp
  exact ⟨[.start, .direct 0], [.go, .go, .use 0, .use 0, .use 0, .exit 0, .go, .go], h5, by simp⟩

/-- In the middle of a destructor: it waits for the dispatcher, which has a job. -/
example : ((run .msg 2 (init .msg) [.start, .virt 0, .virt 1, .destroy, .go, .go]).bind fun s => step .msg 2 s .go).isNone = true ∧
    (run .msg 2 (init .msg) [.start, .virt 0, .virt 1, .destroy, .go, .go]).isSome = true := by decide +kernel

end Salticidae
