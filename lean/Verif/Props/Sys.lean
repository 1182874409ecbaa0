import Verif.Lemmas.Sys
namespace Salticidae
open Sys Spec.Sys

/-! ## C93: fatal errors -/

/-- A network with any number of workers, after any history, that has been started and not stopped: once nothing is left to do, every fatal error that
occurred on any of its threads has been reported to the error callback exactly once. -/
def C93_statement : Prop := ∀ (n : Nat), 0 < n → ∀ (as : List Act) (s : St), run (init n) as = some s → s.sys = 1 → s.pc = .out → Rest s →
  ∀ e, s.out.count e = s.occ.count e

/-- Not if two closures fail on a worker: the first error stops the dispatcher's ThreadCall, through which the second would have had to go. -/
theorem C93_violated : ¬ C93_statement := by
  intro h
  have hr : run (init 2) [.start, .postBad 1 7, .postBad 1 8, .run 1, .run 1, .run 0, .run 0, .user, .run 1, .quit 1] = some _ := rfl
  have := h 2 (by omega) _ _ hr rfl rfl ⟨rfl, by
    intro i hi
    match i, hi with
    | 0, _ => decide
    | 1, _ => decide⟩ 8
  revert this
  decide

/-- No fatal error is reported that did not occur, or more often than it occurred, at any time. -/
theorem C93_genuine_partial (n : Nat) (hn : 0 < n) (as : List Act) (s : St) (h : run (init n) as = some s) (e : Nat) :
    s.out.count e ≤ s.occ.count e := by
  have := (inv_run (life_init hn) (cnt_init n) h).2.le e
  omega

/-- If a fatal error occurred, then once nothing is left to do one has been reported, and all workers but the dispatcher have ended.
Missing: that each is reported. -/
theorem C93_reported_partial (n : Nat) (hn : 0 < n) (as : List Act) (s : St) (h : run (init n) as = some s) (h1 : s.sys = 1) (hpc : s.pc = .out)
    (hr : Rest s) (ho : s.occ ≠ []) : s.out ≠ [] ∧ ∀ i, 1 ≤ i → i < s.n → (s.loops i).phase = .ended := by
  obtain ⟨hl, hc⟩ := inv_run (life_init hn) (cnt_init n) h
  have hrun : ∀ i < s.n, (s.loops i).phase ≠ .ended → (s.loops i).q = [] ∧ (s.loops i).ending = false := by
    intro i hi he
    have := hl.act (by omega) i hi
    apply hr.2 i hi
    cases hp : (s.loops i).phase
    · exact absurd hp this
    · rfl
    · exact absurd hp he
  have hout : s.out ≠ [] := by
    cases ht : s.tstop
    · obtain ⟨_, _, g⟩ := hc.eq ht
      rw [(hrun 0 hl.npos (hl.disp hpc).2.2.2).1] at g
      obtain ⟨e, he⟩ := List.exists_mem_of_ne_nil _ ho
      have := List.count_pos_iff.mpr he
      have := g e
      simp at this
      omega
    · exact (hc.ts ht).resolve_right (fun hh => hh hr.1)
  refine ⟨hout, fun i h1i hi => ?_⟩
  apply Classical.byContradiction
  intro he
  obtain ⟨hq, hend⟩ := hrun i hi he
  rcases hl.oth hout i h1i hi with g | g | g
  · exact he g
  · rw [hend] at g; cases g
  · rw [hq] at g; cases g

/-- With one error there is none to lose: it is reported exactly once. -/
theorem C93_single_partial (n : Nat) (hn : 0 < n) (as : List Act) (s : St) (h : run (init n) as = some s) (h1 : s.sys = 1) (hpc : s.pc = .out)
    (hr : Rest s) (e : Nat) (ho : s.occ = [e]) : s.out = [e] := by
  have g1 := (C93_reported_partial n hn as s h h1 hpc hr (by rw [ho]; simp)).1
  have g2 := fun e => C93_genuine_partial n hn as s h e
  rw [ho] at g2
  match hs : s.out, g1 with
  | [a], _ =>
    have := g2 a
    rw [hs] at this
    by_cases ha : a = e
    · rw [ha]
    · simp [List.count_cons, Ne.symm ha] at this
  | a :: b :: l, _ =>
    have h1 := g2 a
    have h2 := g2 b
    rw [hs] at h1 h2
    by_cases ha : a = e
    · by_cases hb : b = e
      · subst ha; subst hb; simp at h1
      · simp [List.count_cons, Ne.symm hb] at h2
    · simp [List.count_cons, Ne.symm ha] at h1

/-- Once a fatal error has reached the dispatcher no closure queued for it runs any more, and every call that comes to its turn is told
that the network is not available. -/
theorem C93_after (n : Nat) (as : List Act) (s t : St) (a : Act) (_ : run (init n) as = some s) (ht : s.tstop = true) (ha : step s a = some t) :
    t.tstop = true ∧ (∀ k, t.ran.count (0, k) = s.ran.count (0, k)) ∧ ∃ more, t.done = s.done ++ more ∧ ∀ x ∈ more, x.2 = .notAvail := by
  have same : ∀ {t : St}, t.tstop = true → t.ran = s.ran → t.done = s.done →
      t.tstop = true ∧ (∀ k, t.ran.count (0, k) = s.ran.count (0, k)) ∧ ∃ more, t.done = s.done ++ more ∧ ∀ x ∈ more, x.2 = .notAvail :=
    fun h1 h2 h3 => ⟨h1, fun k => by rw [h2], [], by simp [h3]⟩
  cases a with
  | run i =>
    simp only [step] at ha
    split at ha <;> try cases ha
    split at ha <;> cases ha
    by_cases h0 : i = 0
    · subst h0
      cases ‹Task› with
      | sync c ok =>
        exact ⟨by simp [exec0, setLoop, ht], fun k => by simp [exec0, setLoop, ht], [(c, .notAvail)], by simp [exec0, setLoop, ht], by simp⟩
      | _ => exact same (by simp [exec0, setLoop, ht]) (by simp [exec0, setLoop, ht]) (by simp [exec0, setLoop, ht])
    · cases ‹Task› with
      | work k =>
        simp only [execW, setLoop, if_neg h0]
        refine ⟨ht, fun k' => ?_, [], by simp⟩
        rw [List.count_append, List.count_cons, List.count_nil]
        simp [h0]
      | _ => exact same (by simp [execW, setLoop, push, h0, ht]) (by simp [execW, setLoop, push, h0]) (by simp [execW, setLoop, push, h0])
  | start => simp only [step] at ha; split at ha <;> cases ha <;> exact same ht rfl rfl
  | call c ok => simp only [step] at ha; cases ha; exact same ht rfl rfl
  | post i k => simp only [step] at ha; split at ha <;> cases ha; exact same ht rfl rfl
  | postBad i k => simp only [step] at ha; split at ha <;> cases ha; exact same ht rfl rfl
  | timer e => simp only [step] at ha; split at ha <;> cases ha; exact same rfl rfl rfl
  | exit => simp only [step] at ha; split at ha <;> cases ha; exact same ht rfl rfl
  | quit i => simp only [step] at ha; split at ha <;> cases ha; exact same ht rfl rfl
  | user => simp only [step] at ha; split at ha <;> cases ha; exact same ht rfl rfl
  | stop => simp only [step] at ha; split at ha <;> cases ha <;> exact same ht rfl rfl
  | join =>
    simp only [step] at ha
    split at ha
    · split at ha <;> cases ha; exact same ht rfl rfl
    · split at ha <;> cases ha; exact same ht rfl rfl
    · cases ha

/-- A timer of the dispatcher fails while a call waits: the error is reported, the call is refused, the worker ends. -/
example : ∃ s, run (init 2) [.start, .call 3 true, .run 0, .call 4 true, .timer 9, .run 0, .user, .run 1, .quit 1] = some s ∧
    s.occ = [9] ∧ s.out = [9] ∧ s.done = [(3, .value), (4, .notAvail)] ∧ s.sys = 1 ∧ s.pc = .out ∧ Rest s := by
  refine ⟨_, rfl, rfl, rfl, rfl, rfl, rfl, rfl, ?_⟩
  intro i hi
  match i, hi with
  | 0, _ => decide
  | 1, _ => decide

/-! ## C94: start, stop, and the calls that wait -/

/-- For any number of workers and any history: once nothing is left to do, every call that waits has returned. -/
def C94_statement : Prop := ∀ (n : Nat), 0 < n → ∀ (as : List Act) (s : St), run (init n) as = some s → Rest s → s.done.map (·.1) = asked as

/-- Not while the network has not been started. -/
theorem C94_violated : ¬ C94_statement := by
  intro h
  have := h 1 (by omega) [.call 5 true] _ rfl ⟨rfl, by intro i hi; match i, hi with | 0, _ => decide⟩
  revert this; decide

/-- Nor once `stop` has returned: no call returns any more, whatever happens. -/
theorem C94_violated_stopped (n : Nat) (hn : 0 < n) (as bs : List Act) (s t : St) (h : run (init n) as = some s) (hs : s.pc = .finished)
    (ht : run s bs = some t) : t.done = s.done ∧ t.ran = s.ran ∧ t.pc = .finished ∧ ∀ i < t.n, (t.loops i).phase = .ended := by
  have hl := (inv_run (life_init hn) (cnt_init n) h).1
  clear h as
  induction bs generalizing s with
  | nil => cases ht; exact ⟨rfl, rfl, hs, hl.fin hs⟩
  | cons a bs ih =>
    obtain ⟨u, hu, ht⟩ := Option.bind_eq_some_iff.mp ht
    have h2 := hl.two (by rw [hs]; simp)
    have key : u.done = s.done ∧ u.ran = s.ran ∧ u.pc = .finished := by
      cases a with
      | run i =>
        simp only [step] at hu
        split at hu
        · rename_i hi; rw [hl.fin hs i hi.1] at hi; cases hi.2
        · cases hu
      | start => simp only [step] at hu; rw [if_pos (by omega)] at hu; cases hu; exact ⟨rfl, rfl, hs⟩
      | call c ok => simp only [step] at hu; cases hu; exact ⟨rfl, rfl, hs⟩
      | post i k => simp only [step] at hu; split at hu <;> cases hu; exact ⟨rfl, rfl, hs⟩
      | postBad i k => simp only [step] at hu; split at hu <;> cases hu; exact ⟨rfl, rfl, hs⟩
      | timer e => simp only [step] at hu; split at hu <;> cases hu; exact ⟨rfl, rfl, hs⟩
      | exit => simp only [step] at hu; split at hu <;> cases hu; exact ⟨rfl, rfl, hs⟩
      | quit i => simp only [step] at hu; split at hu <;> cases hu; exact ⟨rfl, rfl, hs⟩
      | user => simp only [step] at hu; split at hu <;> cases hu; exact ⟨rfl, rfl, hs⟩
      | stop => simp only [step] at hu; rw [if_pos (by omega)] at hu; cases hu; exact ⟨rfl, rfl, hs⟩
      | join => simp only [step, hs] at hu; cases hu
    obtain ⟨g1, g2, g3⟩ := key
    have := ih u g3 ht (life_step hl hu)
    rwa [g1, g2] at this

/-- While the network is started and `stop` has not been called, fatal errors or not: each call returns exactly once, in the order of the calls.
Missing: before `start`, and during and after `stop`. -/
theorem C94_calls_partial (n : Nat) (hn : 0 < n) (as : List Act) (s : St) (h : run (init n) as = some s) (h1 : s.sys = 1) (hpc : s.pc = .out)
    (hr : Rest s) : s.done.map (·.1) = asked as := by
  obtain ⟨hl, hc⟩ := inv_run (life_init hn) (cnt_init n) h
  have := hc.calls
  obtain ⟨_, _, _, g⟩ := hl.disp hpc
  have hq : (s.loops 0).q = [] := by
    refine (hr.2 0 hl.npos ?_).1
    have := hl.act (by omega) 0 hl.npos
    cases hp : (s.loops 0).phase
    · exact absurd hp this
    · rfl
    · exact absurd hp g
  rw [hq] at this
  simpa using this.symm

/-- In every state of the network and at any time: no call returns twice, or without having been made. -/
theorem C94_once_partial (n : Nat) (hn : 0 < n) (as : List Act) (s : St) (h : run (init n) as = some s) : s.done.map (·.1) <+: asked as := by
  have := (inv_run (life_init hn) (cnt_init n) h).2.calls
  rw [List.nil_append] at this
  exact ⟨_, this.symm⟩

/-- `stop` returns.  While it waits, one of the threads it waits for (or it itself) can do a step that brings it closer to its end, and no
step of any thread, whatever it queues or however it fails, takes it further away. -/
theorem C94_stop (n : Nat) (hn : 0 < n) (as : List Act) (s : St) (h : run (init n) as = some s) (hpc : s.pc = .joinDisp ∨ s.pc = .joinWorkers) :
    (∃ a t, own a = true ∧ step s a = some t ∧ Less (left t) (left s)) ∧
    (∀ a t, step s a = some t → Less (left t) (left s) ∨ left t = left s) := by
  have hl := (inv_run (life_init hn) (cnt_init n) h).1
  exact ⟨left_own hl hpc, fun a t ha => left_mono hl hpc ha⟩

/-- So there is always a way to its end that needs nothing of the application. -/
theorem C94_stop_returns (n : Nat) (hn : 0 < n) (as : List Act) (s : St) (h : run (init n) as = some s) (hpc : s.pc ≠ .out) :
    ∃ bs t, (∀ b ∈ bs, own b = true) ∧ run s bs = some t ∧ t.pc = .finished := by
  have hl := (inv_run (life_init hn) (cnt_init n) h).1
  clear h as
  have wf : WellFounded (fun a b : Nat × Nat => Prod.Lex (· < ·) (· < ·) a b) := (Prod.lex ⟨_, Nat.lt_wfRel.wf⟩ ⟨_, Nat.lt_wfRel.wf⟩).wf
  have key : ∀ (m : Nat × Nat) (s : St), left s = m → Life s → s.pc ≠ .out → ∃ bs t, (∀ b ∈ bs, own b = true) ∧ run s bs = some t ∧ t.pc = .finished := by
    intro m
    induction m using wf.induction with
    | _ m ih =>
      intro s hm hl hpc
      match hp : s.pc with
      | .out => exact absurd hp hpc
      | .finished => exact ⟨[], s, by simp, rfl, hp⟩
      | .joinDisp =>
        obtain ⟨a, u, ho, ha, hlt⟩ := left_own hl (.inl hp)
        obtain ⟨bs, t, g1, g2, g3⟩ := ih (left u) (by rw [← hm]; exact Prod.lex_def.mpr hlt) u rfl (life_step hl ha) (by
            intro e
            have := (life_step hl ha).disp e
            by_cases hj : a = .join
            · subst hj; simp only [step, hp] at ha; split at ha <;> cases ha; cases e
            · rw [pc_step ha hj (by rintro rfl; cases ho), hp] at e; cases e)
        exact ⟨a :: bs, t, by simpa [ho] using g1, by simp [run, ha, g2], g3⟩
      | .joinWorkers =>
        obtain ⟨a, u, ho, ha, hlt⟩ := left_own hl (.inr hp)
        obtain ⟨bs, t, g1, g2, g3⟩ := ih (left u) (by rw [← hm]; exact Prod.lex_def.mpr hlt) u rfl (life_step hl ha) (by
            intro e
            by_cases hj : a = .join
            · subst hj; simp only [step, hp] at ha; split at ha <;> cases ha; cases e
            · rw [pc_step ha hj (by rintro rfl; cases ho), hp] at e; cases e)
        exact ⟨a :: bs, t, by simpa [ho] using g1, by simp [run, ha, g2], g3⟩
  exact key _ s rfl hl hpc

/-- When `stop` has returned, all the threads of the network have ended. -/
theorem C94_end (n : Nat) (hn : 0 < n) (as : List Act) (s : St) (h : run (init n) as = some s) (hs : s.pc = .finished) :
    ∀ i < s.n, (s.loops i).phase = .ended := (inv_run (life_init hn) (cnt_init n) h).1.fin hs

/-- `stop` while one worker has work queued, and an error reported meanwhile. -/
example : ∃ s, run (init 3) [.start, .post 1 4, .postBad 2 6, .call 1 true, .run 2, .stop, .run 0, .run 0, .exit, .quit 0, .join, .run 1, .run 1, .quit 1,
    .run 2, .user, .quit 2, .join, .call 2 true] = some s ∧ s.pc = .finished ∧ s.ran = [(1, 4)] ∧ s.out = [6] ∧ s.done = [(1, .value)] ∧
    asked [.call 1 true, .call 2 true] = [1, 2] := ⟨_, rfl, rfl, rfl, rfl, rfl, rfl⟩

end Salticidae
