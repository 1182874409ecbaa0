import Verif.Lemmas.Timer
/-
C108: timers and timeouts.
-/
namespace Salticidae
open Timer Spec.Timer

/-- The full statement of C108: starting a timer is always defined; a timer calls its callback, and a TimedFdEvent reports
TIMEOUT, only when the object has been waiting for the time it was added for, and (TimedFdEvent) its descriptor has not
become ready meanwhile. -/
def C108_statement (rnd : Rat → Rat) : Prop :=
  ∀ tr i s, run rnd {} (tr ++ [.fire i]) = some s → s.undef = false ∧
    ∃ pre a post t, Waiting i tr pre a post t ∧
      (elapsed pre : Rat) + t * 1000000000 ≤ (elapsed tr : Rat) ∧ .avail i ∉ post

/-- The waiting that a history ends with is unique. -/
theorem Timer.waiting_unique {i : Nat} {tr pre pre' post post' : List Act} {a a' : Act} {t t' : Rat}
    (h : Waiting i tr pre a post t) (h' : Waiting i tr pre' a' post' t') : pre = pre' ∧ a = a' ∧ post = post' ∧ t = t' := by
  have e : pre ++ a :: post = pre' ++ a' :: post' := h.split ▸ h'.split
  rw [List.append_eq_append_iff] at e
  have fin : pre = pre' → pre ++ a :: post = pre' ++ a' :: post' → pre = pre' ∧ a = a' ∧ post = post' ∧ t = t' := by
    rintro rfl e
    have := List.append_cancel_left e
    simp only [List.cons.injEq] at this
    obtain ⟨rfl, rfl⟩ := this
    have := h.time
    rw [h'.time] at this
    exact ⟨rfl, rfl, rfl, by cases this; rfl⟩
  rcases e with ⟨as, h1, h2⟩ | ⟨bs, h1, h2⟩
  · cases as with
    | nil => exact fin (by simpa using h1.symm) (by rw [h1]; simp [h2])
    | cons x xs =>
      simp only [List.cons_append, List.cons.injEq] at h2
      have := h.quiet a' (by rw [h2.2]; simp)
      rw [touches_of_restarts h'.starts] at this; cases this
  · cases bs with
    | nil => exact fin (by simpa using h1) (by rw [h1]; simp [h2])
    | cons x xs =>
      simp only [List.cons_append, List.cons.injEq] at h2
      have := h'.quiet a (by rw [h2.2]; simp)
      rw [touches_of_restarts h.starts] at this; cases this

/-- What can be said of a rounded product. -/
theorem Timer.toMs_bounds {rnd : Rat → Rat} (hr : Rounding rnd) {t : Rat} {ms : Nat} (h : toMs rnd t = some ms)
    (ht : 0 ≤ t) (hb : t * 1000 ≤ 9007199254740992) : t * 1000 - 1 < (ms : Rat) ∧ (ms : Rat) < t * 1000 + 1 := by
  have hx : (0 : Rat) ≤ t * 1000 := by grind
  have h1 := Rat.floor_le (t * 1000)
  have h2 := Rat.lt_floor_add_one (t * 1000)
  have h3 := Rat.le_ceil (x := t * 1000)
  have h4 : ((t * 1000).ceil : Rat) < t * 1000 + 1 := Rat.ceil_lt
  have f0 : 0 ≤ (t * 1000).floor := Rat.le_floor_iff.2 (by simpa using hx)
  have c0 : (t * 1000).ceil ≤ 2 ^ 53 := Rat.ceil_le_iff.2 (by simpa using hb)
  have c1 : (t * 1000).floor ≤ (t * 1000).ceil := by
    have : ((t * 1000).floor : Rat) ≤ ((t * 1000).ceil : Rat) := by grind
    exact Rat.intCast_le_intCast.mp this
  have r1 := hr.mono _ _ h1
  rw [hr.whole _ (by omega)] at r1
  have r2 := hr.mono _ _ h3
  rw [hr.whole _ (by omega)] at r2
  simp only [toMs] at h
  split at h
  · simp only [Option.some.injEq] at h
    have g1 : (t * 1000).floor ≤ (rnd (t * 1000)).floor := Rat.le_floor_iff.2 r1
    have g2 : (rnd (t * 1000)).floor ≤ (t * 1000).ceil := by
      have := Rat.floor_le (rnd (t * 1000))
      exact Rat.intCast_le_intCast.mp (by grind)
    have e : ((ms : Int) : Rat) = ((rnd (t * 1000)).floor : Rat) := by
      congr 1; omega
    rw [Rat.intCast_natCast] at e
    rw [e]
    have g1' := Rat.intCast_le_intCast.mpr g1
    have g2' := Rat.intCast_le_intCast.mpr g2
    simp only [Rat.intCast_add, Rat.intCast_ofNat] at h2
    constructor <;> grind
  · cases h

/-- The loop has been busy for `d`, then a timer is added. -/
theorem Timer.run_busy (rnd : Rat → Rat) (d : Nat) (t : Rat) (ms : Nat) (hd : d < u64) (hms : toMs rnd t = some ms)
    (hle : ms ≤ d / 1000000) : ∃ s, run rnd {} [.new .timer, .clock d, .add 0 t, .iter, .fire 0] = some s ∧ s.undef = false := by
  have hlt : ms < u64 := by omega
  let s0 : St := { objs := [{ kind := .timer }] }
  let s1 : St := { s0 with now := d }
  let o2 : Obj := { kind := .timer, due := some ms }
  let s2 : St := { s1 with objs := [o2] }
  let s3 : St := { s1 with phase := .timers, lt := d / 1000000, objs := [{ o2 with mark := true }] }
  let s4 : St := { s3 with objs := [{ o2 with mark := true, due := none }] }
  have e1 : step rnd {} (.new .timer) = some s0 := rfl
  have e2 : step rnd s0 (.clock d) = some s1 := by
    simp only [step, s0, Nat.zero_add, if_pos hd, s1]
  have e3 : step rnd s1 (.add 0 t) = some s2 := by
    simp only [step, s1, s0, List.getElem?_cons_zero, and_self, if_true, hms, St.set, start, Nat.zero_add, if_pos hlt,
      List.set_cons_zero, s2, o2]
  have e4 : step rnd s2 .iter = some s3 := rfl
  have e5 : step rnd s3 (.fire 0) = some s4 := by
    simp only [step, s3, o2, List.getElem?_cons_zero, true_and, if_pos hle, St.set, List.set_cons_zero, s4, s1, s0]
    rfl
  refine ⟨s4, ?_, rfl⟩
  simp only [run, e1, e2, e3, e4, e5, Option.bind_some]

/-- C108 is violated: a timer added for a number of seconds calls its callback at once if the loop has been busy for that time
before: the time counts from when the loop last looked at the clock. -/
theorem C108_violated_early (rnd : Rat → Rat) (hr : Rounding rnd) (n : Nat) (hn : n * 1000000000 < u64) :
    ∃ pre s, run rnd {} (pre ++ [.add 0 n, .iter, .fire 0]) = some s ∧ s.undef = false := by
  obtain ⟨m, hm⟩ : ∃ m, m = n * 1000 := ⟨_, rfl⟩
  have hmu : m < u64 := by omega
  have em : (n : Rat) * 1000 = (m : Rat) := by rw [hm]; simp
  have e : rnd (m : Rat) = (m : Rat) := by
    have := hr.whole (m : Int) (by simp only [u64] at hn; omega)
    rwa [Rat.intCast_natCast] at this
  have ems : toMs rnd n = some m := by
    simp only [toMs, em, e]
    rw [if_pos, ← Rat.intCast_natCast, Rat.floor_intCast]
    · rfl
    · refine ⟨?_, Rat.natCast_lt_natCast.mpr hmu⟩
      have : (0 : Rat) ≤ (m : Rat) := Rat.natCast_nonneg
      grind
  obtain ⟨s, h1, h2⟩ := run_busy rnd (n * 1000000000) n m hn ems (by omega)
  exact ⟨[.new .timer, .clock (n * 1000000000)], s, h1, h2⟩

/-- C108 is violated, for that reason. -/
theorem C108_violated (rnd : Rat → Rat) (hr : Rounding rnd) : ¬ C108_statement rnd := by
  intro h
  have e : rnd (1 * 1000) = 1000 := by
    have := hr.whole 1000 (by decide)
    simpa using this
  have ems : toMs rnd 1 = some 1000 := by simp only [toMs, e]; decide +kernel
  obtain ⟨s, hs, _⟩ := run_busy rnd 1000000000 1 1000 (by decide) ems (by decide)
  obtain ⟨_, pre, a, post, t, hw, ht, _⟩ := h [.new .timer, .clock 1000000000, .add 0 1, .iter] 0 s hs
  obtain ⟨rfl, rfl, rfl, rfl⟩ := waiting_unique hw (⟨rfl, rfl, by decide, rfl⟩ :
    Waiting 0 [.new .timer, .clock 1000000000, .add 0 1, .iter] [.new .timer, .clock 1000000000] (.add 0 1) [.iter] 1)
  revert ht; decide +kernel

/-- Rounding matters only when something is added. -/
theorem Timer.run_noAdd (rnd : Rat → Rat) (s : St) (tr : List Act) (h : tr.all (fun a => match a with
    | .add _ _ | .addFd _ _ _ => false
    | _ => true) = true) : run rnd s tr = run id s tr := by
  induction tr generalizing s with
  | nil => rfl
  | cons a tr ih =>
    simp only [List.all_cons, Bool.and_eq_true] at h
    have : step rnd s a = step id s a := by
      cases a <;> first | rfl | (simp at h)
    simp only [run, this]
    congr 1; funext s'; exact ih s' h.2

/-- C108 is violated: the time is cut to milliseconds, so the callback comes early even if the loop has just looked at the clock:
a timer of 1.5 ms calls after 1 ms. -/
theorem C108_violated_truncated (rnd : Rat → Rat) (h : rnd (3 / 2) = 3 / 2) :
    ∃ s, run rnd {} ([.new .timer, .iter, .wait, .add 0 (3 / 2000), .clock 1000000, .iter] ++ [.fire 0]) = some s ∧
      s.undef = false := by
  have ems : toMs rnd (3 / 2000) = some 1 := by
    have : (3 / 2000 : Rat) * 1000 = 3 / 2 := by decide +kernel
    simp only [toMs, this, h]; decide +kernel
  refine ⟨{ now := 1000000, lt := 1, phase := .timers, objs := [{ kind := .timer, mark := true }] }, ?_, rfl⟩
  have e : step rnd { objs := [{ kind := .timer }] } (.add 0 (3 / 2000)) =
      some { objs := [{ kind := .timer, due := some 1 }] } := by
    simp only [step, List.getElem?_cons_zero, and_self, if_true, ems]
    decide +kernel
  show run rnd {} [.new .timer, .iter, .wait, .add 0 (3 / 2000), .clock 1000000, .iter, .fire 0] = _
  rw [run, show step rnd {} (.new .timer) = some { objs := [{ kind := .timer }] } from rfl, Option.bind_some,
    run, show step rnd { objs := [{ kind := .timer }] } .iter = some { phase := .timers, objs := [{ kind := .timer }] } from rfl, Option.bind_some,
    run, show step rnd { phase := .timers, objs := [{ kind := .timer }] } .wait = some { objs := [{ kind := .timer }] } from rfl, Option.bind_some,
    run, e, Option.bind_some, run_noAdd _ _ _ rfl]
  decide +kernel

/-- C108 is violated: TIMEOUT is reported although the descriptor became ready within half of the time, if the loop was busy. -/
theorem C108_violated_ready (rnd : Rat → Rat) (hr : Rounding rnd) : ∃ tr s, run rnd {} (tr ++ [.fire 0]) = some s ∧ s.undef = false ∧
    ∀ pre a post t, Waiting 0 tr pre a post t →
      ∃ p q, post = p ++ .avail 0 :: q ∧ (elapsed (pre ++ a :: p) : Rat) - (elapsed pre : Rat) ≤ t * 1000000000 / 2 := by
  have ems : toMs rnd 1 = some 1000 := by
    have : rnd (1 * 1000) = 1000 := by simpa using hr.whole 1000 (by decide)
    simp only [toMs, this]; decide +kernel
  refine ⟨[.new .timed, .addFd 0 2 1, .clock 500000000, .avail 0, .clock 600000000, .iter],
    { now := 1100000000, lt := 1100, phase := .timers, objs := [{ kind := .timed, mark := true, timeout := 1000 }] }, ?_, rfl, ?_⟩
  · have e : step rnd { objs := [{ kind := .timed }] } (.addFd 0 2 1) =
        some { objs := [{ kind := .timed, due := some 1000, mask := 2, timeout := 1000 }] } := by
      simp only [step, List.getElem?_cons_zero, and_self, if_true, ems]
      decide +kernel
    show run rnd {} [.new .timed, .addFd 0 2 1, .clock 500000000, .avail 0, .clock 600000000, .iter, .fire 0] = _
    rw [run, show step rnd {} (.new .timed) = some { objs := [{ kind := .timed }] } from rfl, Option.bind_some, run, e, Option.bind_some, run_noAdd _ _ _ rfl]
    decide +kernel
  · intro pre a post t hw
    obtain ⟨rfl, rfl, rfl, rfl⟩ := waiting_unique hw (⟨rfl, rfl, by decide, rfl⟩ :
      Waiting 0 _ [.new .timed] (.addFd 0 2 1) [.clock 500000000, .avail 0, .clock 600000000, .iter] 1)
    exact ⟨[.clock 500000000], [.clock 600000000, .iter], rfl, by decide +kernel⟩

/-- C108 is violated: adding a timer for a second that is past is undefined. -/
theorem C108_violated_range (rnd : Rat → Rat) (hr : Rounding rnd) :
    ∃ s, run rnd {} [.new .timer, .add 0 (-1)] = some s ∧ s.undef = true := by
  have ems : toMs rnd (-1) = none := by
    have : rnd (-1 * 1000) = -1000 := by
      have := hr.whole (-1000) (by decide)
      have e : ((-1000 : Int) : Rat) = -1 * 1000 := by decide +kernel
      rw [e] at this
      rw [this]; decide +kernel
    simp only [toMs, this]; decide +kernel
  refine ⟨{ objs := [{ kind := .timer }], undef := true }, ?_, rfl⟩
  have e : step rnd { objs := [{ kind := .timer }] } (.add 0 (-1)) = some { objs := [{ kind := .timer }], undef := true } := by
    simp only [step, List.getElem?_cons_zero, and_self, if_true, ems]
  rw [run, show step rnd {} (.new .timer) = some { objs := [{ kind := .timer }] } from rfl, Option.bind_some, run, e]
  rfl

theorem Timer.cap_le {n m : Nat} (h : cap n ≤ m) (hm : m < u64 - 1) : n ≤ m := by
  simp only [cap] at h
  split at h <;> omega

theorem Timer.lt_small {rnd : Rat → Rat} {tr : List Act} {s : St} (h : Inv rnd tr s) : s.lt < u64 - 1 := by
  have := h.small
  simp only [u64] at *; omega

/-- C108, proved part: a timer calls, and a TimedFdEvent reports TIMEOUT, only when it is waiting, and then the clock of the loop has
moved on by the whole milliseconds of the time it was added for (less than a millisecond is cut off).  So if the loop had just looked
at the clock when the waiting began, the time that has really passed falls short by less than two milliseconds.
Missing: the loop may not have looked at the clock for long when the object was added. -/
theorem C108_timeout_partial (rnd : Rat → Rat) (hr : Rounding rnd) (tr : List Act) (i : Nat) (s : St)
    (h : run rnd {} (tr ++ [.fire i]) = some s) (hu : s.undef = false) :
    ∃ pre a post t, Waiting i tr pre a post t ∧ (0 ≤ t → t * 1000 ≤ 9007199254740992 →
      (loopClock 0 0 pre : Rat) + (t * 1000 - 1) < (loopClock 0 0 tr : Rat) ∧
      (loopClock 0 0 pre = elapsed pre / 1000000 →
        (elapsed pre : Rat) + (t * 1000 - 2) * 1000000 < (elapsed tr : Rat))) := by
  obtain ⟨s1, h1, h2⟩ := run_snoc h
  have hv := run_inv h1
  simp only [step] at h2
  split at h2
  · rename_i o ho
    split at h2
    · rename_i d hd
      split at h2 <;> cases h2
      rename_i hg
      have hv' := hv.objs hu i o ho
      obtain ⟨pre, a, post, t, hw⟩ := hv'.wait (by rw [hd]; rfl)
      obtain ⟨ms, e1, e2, _⟩ := hv'.due _ _ _ _ hw
      rw [hd] at e2; cases e2
      have hle := cap_le hg.2 (lt_small hv)
      rw [hv.lt] at hle
      refine ⟨pre, a, post, t, hw, fun ht hb => ?_⟩
      have hbd := (toMs_bounds hr e1 ht hb).1
      have hle' : ((loopClock 0 0 pre : Nat) : Rat) + (ms : Rat) ≤ ((loopClock 0 0 tr : Nat) : Rat) := by
        rw [← Rat.natCast_add]; exact Rat.natCast_le_natCast.mpr hle
      refine ⟨by grind, fun hf => ?_⟩
      have hs := hv.small.2
      rw [hv.lt, hv.now] at hs
      have h3 : elapsed pre < (loopClock 0 0 pre + 1) * 1000000 := by rw [hf]; omega
      have hs' : ((loopClock 0 0 tr : Nat) : Rat) * 1000000 ≤ ((elapsed tr : Nat) : Rat) := by
        have := Rat.natCast_le_natCast.mpr hs
        simpa using this
      have h3' : ((elapsed pre : Nat) : Rat) < (((loopClock 0 0 pre : Nat) : Rat) + 1) * 1000000 := by
        have := Rat.natCast_lt_natCast.mpr h3
        simpa using this
      grind
    · cases h2
  · cases h2

/-- C108, proved part: no timer is overlooked.  When the loop has run its timers, an object that was waiting before and still is has
not waited for its time yet, on the clock of the loop. -/
theorem C108_prompt (rnd : Rat → Rat) (hr : Rounding rnd) (tr : List Act) (s : St) (h : run rnd {} (tr ++ [.wait]) = some s)
    (hu : s.undef = false) (i : Nat) (pre : List Act) (a : Act) (post : List Act) (t : Rat) (hw : Waiting i tr pre a post t)
    (hi : .iter ∈ post) (ht : 0 ≤ t) (hb : t * 1000 ≤ 9007199254740992) :
    (loopClock 0 0 tr : Rat) < (loopClock 0 0 pre : Rat) + t * 1000 + 1 := by
  obtain ⟨s1, h1, h2⟩ := run_snoc h
  have hv := run_inv h1
  simp only [step] at h2
  split at h2 <;> cases h2
  rename_i hg
  have hex : ∃ o, s1.objs[i]? = some o := by
    cases ho : s1.objs[i]? with
    | some o => exact ⟨o, rfl⟩
    | none =>
      have := hv.none hu i ho a (by rw [hw.split]; simp)
      rw [touches_of_restarts hw.starts] at this; cases this
  obtain ⟨o, ho⟩ := hex
  obtain ⟨ms, e1, e2, e3⟩ := (hv.objs hu i o ho).due _ _ _ _ hw
  have hall := hg.2
  rw [List.all_eq_true] at hall
  have := hall o (List.mem_of_getElem? ho)
  rw [e2, e3.mpr hi] at this
  simp only [Bool.true_and, Bool.not_eq_true', decide_eq_false_iff_not, Nat.not_le] at this
  have hlt : s1.lt < loopClock 0 0 pre + ms := by
    have h4 := this
    simp only [cap] at h4
    split at h4
    · exact h4
    · have := lt_small hv; omega
  rw [hv.lt] at hlt
  have hbd := (toMs_bounds hr e1 ht hb).2
  have hlt' : ((loopClock 0 0 tr : Nat) : Rat) < ((loopClock 0 0 pre : Nat) : Rat) + (ms : Rat) := by
    rw [← Rat.natCast_add]; exact Rat.natCast_lt_natCast.mpr hlt
  grind

/-- C108, proved part: and it can always be run: an object that has waited for its time (rounded up to milliseconds), on the clock of
the loop, can call back while the loop runs timers. -/
theorem C108_enabled (rnd : Rat → Rat) (hr : Rounding rnd) (tr : List Act) (s : St) (h : run rnd {} tr = some s) (hu : s.undef = false)
    (hph : s.phase = .timers) (i : Nat) (pre : List Act) (a : Act) (post : List Act) (t : Rat) (hw : Waiting i tr pre a post t)
    (ht : 0 ≤ t) (hb : t * 1000 ≤ 9007199254740992)
    (hd : (loopClock 0 0 pre : Rat) + t * 1000 + 1 ≤ (loopClock 0 0 tr : Rat)) :
    (run rnd {} (tr ++ [.fire i])).isSome = true := by
  have hv := run_inv h
  have hex : ∃ o, s.objs[i]? = some o := by
    cases ho : s.objs[i]? with
    | some o => exact ⟨o, rfl⟩
    | none =>
      have := hv.none hu i ho a (by rw [hw.split]; simp)
      rw [touches_of_restarts hw.starts] at this; cases this
  obtain ⟨o, ho⟩ := hex
  obtain ⟨ms, e1, e2, _⟩ := (hv.objs hu i o ho).due _ _ _ _ hw
  have hbd := (toMs_bounds hr e1 ht hb).2
  have hle : loopClock 0 0 pre + ms ≤ loopClock 0 0 tr := by
    have : (((loopClock 0 0 pre + ms : Nat)) : Rat) ≤ ((loopClock 0 0 tr : Nat) : Rat) := by
      rw [Rat.natCast_add]; grind
    exact Rat.natCast_le_natCast.mp this
  rw [← hv.lt] at hle
  have hc : cap (loopClock 0 0 pre + ms) ≤ s.lt := by
    have := lt_small hv
    simp only [cap]; split <;> omega
  rw [run_append, h]
  simp only [Option.bind_some, run, step, ho, e2, hph, hc, and_self, if_true, Option.isSome_some]

/-- C108, proved part: an object reports nothing unless it has been added, and nothing after it has been stopped or has timed out
until it is added again; of its descriptor, it reports only what it was added for, and nothing after an error. -/
theorem C108_in_force (rnd : Rat → Rat) (tr : List Act) (i : Nat) (r : Act) (s : St)
    (h : run rnd {} (tr ++ [r]) = some s) (hu : s.undef = false) :
    (r = .fire i → inForce i tr false = true) ∧
    (∀ ev, r = .ready i ev → inForce i tr false = true ∧ ev ≠ 0 ∧ ev &&& listening i tr 0 = ev) ∧
    (r = .error i → inForce i tr false = true ∧ listening i tr 0 ≠ 0) := by
  obtain ⟨s1, h1, h2⟩ := run_snoc h
  have hv := run_inv h1
  refine ⟨?_, ?_, ?_⟩
  · rintro rfl
    simp only [step] at h2
    split at h2
    · rename_i o ho
      split at h2
      · rename_i d hd
        split at h2 <;> cases h2
        exact (hv.objs hu i o ho).force (.inl (by rw [hd]; rfl))
      · cases h2
    · cases h2
  · rintro ev rfl
    simp only [step] at h2
    split at h2
    · rename_i o ho
      split at h2 <;> cases h2
      rename_i hg
      have hv' := hv.objs hu i o ho
      rw [← hv'.mask]
      refine ⟨hv'.force (.inr ?_), hg.2⟩
      intro e
      rw [e] at hg
      exact hg.2.1 (by simpa using hg.2.2.symm)
    · cases h2
  · rintro rfl
    simp only [step] at h2
    split at h2
    · rename_i o ho
      split at h2 <;> cases h2
      rename_i hg
      have hv' := hv.objs hu i o ho
      rw [← hv'.mask]
      exact ⟨hv'.force (.inr hg.2), hg.2⟩
    · cases h2

/-- C108, proved part: adding is undefined only for times outside the range of the conversion. -/
theorem C108_defined_partial (rnd : Rat → Rat) (hr : Rounding rnd) (tr : List Act) (s : St) (h : run rnd {} tr = some s)
    (ht : ∀ b ∈ tr, ∀ i ev t, b = .add i t ∨ b = .addFd i ev t → 0 ≤ t ∧ t * 1000 ≤ 9007199254740992) : s.undef = false := by
  have hdef : ∀ t : Rat, 0 ≤ t → t * 1000 ≤ 9007199254740992 → toMs rnd t ≠ none := by
    intro t h0 hb
    have h1 := hr.mono (((0 : Int)) : Rat) (t * 1000) (by grind)
    rw [hr.whole 0 (by decide)] at h1
    have h2 := hr.mono (t * 1000) ((9007199254740992 : Int) : Rat) (by grind)
    rw [hr.whole 9007199254740992 (by decide)] at h2
    have h3 : ((9007199254740992 : Int) : Rat) < (u64 : Rat) := by decide +kernel
    simp only [toMs]
    rw [if_pos ⟨by grind, by grind⟩]
    simp
  suffices ∀ (tr : List Act) (s0 s : St), s0.undef = false → run rnd s0 tr = some s →
      (∀ b ∈ tr, ∀ i ev t, b = .add i t ∨ b = .addFd i ev t → 0 ≤ t ∧ t * 1000 ≤ 9007199254740992) → s.undef = false from
    this tr {} s rfl h ht
  intro tr
  induction tr with
  | nil => intro s0 s h0 h _; simp only [run, Option.some.injEq] at h; rw [← h]; exact h0
  | cons b tr ih =>
    intro s0 s h0 h hb
    simp only [run] at h
    cases hs : step rnd s0 b with
    | none => rw [hs] at h; cases h
    | some s1 =>
      rw [hs] at h
      refine ih s1 s ?_ (by simpa using h) fun c hc => hb c (by simp [hc])
      have hbb := hb b (by simp)
      cases b <;> simp only [step] at hs
      case add i t =>
        split at hs
        · split at hs
          · split at hs
            · cases hs; exact h0
            · rename_i he
              have := hbb i 0 t (.inl rfl)
              exact absurd he (hdef t this.1 this.2)
          · cases hs
        · cases hs
      case addFd i ev t =>
        split at hs
        · split at hs
          · split at hs
            · cases hs; exact h0
            · rename_i he
              have := hbb i ev t (.inr rfl)
              exact absurd he (hdef t this.1 this.2)
          · cases hs
        · cases hs
      all_goals
        first
        | (cases hs; exact h0)
        | (split at hs <;> first
            | (cases hs; done)
            | (cases hs; exact h0)
            | (split at hs <;> first
                | (cases hs; done)
                | (cases hs; exact h0)
                | (split at hs <;> first
                    | (cases hs; done)
                    | (cases hs; exact h0))))

theorem Timer.cleared_set {s : St} {i j : Nat} {o x : Obj} (h : s.objs[i]? = some o) (hc : o.cleared = true) (hx : ∀ y, s.objs[j]? = some y → y.cleared = true → x.cleared = true) :
    ∃ o', (s.set j x).objs[i]? = some o' ∧ o'.cleared = true := by
  have hi := (List.getElem?_eq_some_iff.mp h).1
  simp only [St.set, List.getElem?_set]
  by_cases e : j = i
  · subst e
    simp only [hi, if_true]
    exact ⟨x, rfl, hx o h hc⟩
  · simp only [e, if_false]
    exact ⟨o, h, hc⟩

/-- A cleared object stays cleared. -/
theorem Timer.cleared_step {rnd : Rat → Rat} {s s' : St} {a : Act} (hs : step rnd s a = some s') {i : Nat} {o : Obj} (h : s.objs[i]? = some o) (hc : o.cleared = true) :
    ∃ o', s'.objs[i]? = some o' ∧ o'.cleared = true := by
  cases a <;> simp only [step] at hs
  case iter =>
    split at hs <;> cases hs
    exact ⟨{ o with mark := o.due.isSome }, by simp [h], hc⟩
  case new k =>
    cases hs
    exact ⟨o, by rw [List.getElem?_append_left (List.getElem?_eq_some_iff.mp h).1]; exact h, hc⟩
  case add j t =>
    split at hs
    · next x hx =>
      split at hs
      · split at hs <;> cases hs
        · exact cleared_set h hc (fun y hy hyc => by rw [hx] at hy; cases hy; exact hyc)
        · exact ⟨o, h, hc⟩
      · cases hs
    · cases hs
  case addFd j ev t =>
    split at hs
    · next x hx =>
      split at hs
      · split at hs <;> cases hs
        · exact cleared_set h hc (fun y hy hyc => by rw [hx] at hy; cases hy; exact hyc)
        · exact ⟨o, h, hc⟩
      · cases hs
    · cases hs
  case fire j =>
    split at hs
    · next x hx =>
      split at hs
      · split at hs <;> cases hs
        exact cleared_set h hc (fun y hy hyc => by rw [hx] at hy; cases hy; exact hyc)
      · cases hs
    · cases hs
  case del j =>
    split at hs
    · next x hx => cases hs; exact cleared_set h hc (fun y hy hyc => by rw [hx] at hy; cases hy; exact hyc)
    · cases hs
  case clear j =>
    split at hs
    · cases hs; exact cleared_set h hc (fun y hy hyc => rfl)
    · cases hs
  case ready j ev =>
    split at hs
    · next x hx =>
      split at hs <;> cases hs
      exact cleared_set h hc (fun y hy hyc => by rw [hx] at hy; cases hy; exact hyc)
    · cases hs
  case error j =>
    split at hs
    · next x hx =>
      split at hs <;> cases hs
      exact cleared_set h hc (fun y hy hyc => by rw [hx] at hy; cases hy; exact hyc)
    · cases hs
  all_goals (split at hs <;> cases hs; exact ⟨o, h, hc⟩)

theorem Timer.cleared_run {rnd : Rat → Rat} {i : Nat} : ∀ {tr : List Act} {s s' : St} {o : Obj}, run rnd s tr = some s' → s.objs[i]? = some o → o.cleared = true →
    ∃ o', s'.objs[i]? = some o' ∧ o'.cleared = true
  | [], s, s', o, hr, h, hc => by cases hr; exact ⟨o, h, hc⟩
  | a :: as, s, s', o, hr, h, hc => by
    simp only [run, Option.bind_eq_some_iff] at hr
    obtain ⟨u, h1, h2⟩ := hr
    obtain ⟨o', g1, g2⟩ := cleared_step h1 h hc
    exact cleared_run h2 g1 g2

/-- C108: an object that was cleared cannot be added again, whatever happened in between (the assertion of event.h:243 and 326 fails). -/
theorem C108_cleared (rnd : Rat → Rat) (pre mid : List Act) (i : Nat) (s : St) (h : run rnd {} (pre ++ .clear i :: mid) = some s) (t : Rat) (ev : Nat) :
    step rnd s (.add i t) = none ∧ step rnd s (.addFd i ev t) = none := by
  have split : ∀ (as bs : List Act) (s : St), run rnd s (as ++ bs) = (run rnd s as).bind fun u => run rnd u bs := by
    intro as bs
    induction as with
    | nil => intro s; rfl
    | cons a as ih =>
      intro s
      simp only [List.cons_append, run]
      cases step rnd s a with
      | none => rfl
      | some u => exact ih u
  rw [split] at h
  obtain ⟨u, h1, h2⟩ := Option.bind_eq_some_iff.mp h
  simp only [run, Option.bind_eq_some_iff] at h2
  obtain ⟨v, h3, h4⟩ := h2
  have : ∃ o, v.objs[i]? = some o ∧ o.cleared = true := by
    simp only [step] at h3
    split at h3
    · next x hx =>
      cases h3
      refine ⟨{ x with due := none, mask := 0, cleared := true }, ?_, rfl⟩
      simp only [St.set, List.getElem?_set, (List.getElem?_eq_some_iff.mp hx).1, if_true]
    · cases h3
  obtain ⟨o, g1, g2⟩ := this
  obtain ⟨o', k1, k2⟩ := cleared_run h4 g1 g2
  simp [step, k1, k2]

example : (run id {} ([.new .timer, .add 0 1] ++ .clear 0 :: [.new .timer, .add 1 1])).isSome = true := by decide +kernel

/-- The identity is a rounding. -/
theorem Timer.rounding_id : Rounding id := ⟨fun _ _ h => h, fun _ _ => rfl⟩

/-- A TimedFdEvent for 3 ms whose descriptor is ready after 2 ms reports that, then TIMEOUT 3 ms later and not before; a timer of
2 ms that has been stopped does not call. -/
def Timer.exampleTrace : List Act :=
  [.new .timed, .new .timer, .iter, .wait, .addFd 0 1 (3 / 1000), .add 1 (2 / 1000), .clock 2000000, .avail 0, .woke, .ready 0 1,
   .del 1, .iter, .wait, .clock 3000000, .woke, .iter]

example : (run id {} exampleTrace).map (fun s => (s.undef, s.phase, s.lt)) = some (false, .timers, 5) ∧
    (run id {} (exampleTrace ++ [.fire 0])).isSome = true ∧ (run id {} (exampleTrace ++ [.fire 1])).isSome = false ∧
    (run id {} (exampleTrace ++ [.wait])).isSome = false ∧ (run id {} (exampleTrace ++ [.fire 0, .wait])).isSome = true ∧
    (run id {} (exampleTrace ++ [.fire 0, .fire 0])).isSome = false := by decide +kernel

example : Waiting 0 exampleTrace (exampleTrace.take 9) (.ready 0 1) (exampleTrace.drop 10) (3 / 1000) :=
  ⟨by decide +kernel, rfl, by decide +kernel, by decide +kernel⟩

/-- The hypotheses of C108_prompt: a timer of 5 ms when the loop starts to wait after 2 ms. -/
example : (run id {} ([.new .timer, .iter, .wait, .add 0 (5 / 1000), .clock 2000000, .iter] ++ [.wait])).isSome = true ∧
    (run id {} ([.new .timer, .iter, .wait, .add 0 (5 / 1000), .clock 5000000, .iter] ++ [.wait])).isSome = false := by decide +kernel

end Salticidae
