import Verif.Lemmas.ThreadCall
import Verif.Spec.ThreadCall
/-
C39-C41: the event-driven queue and ThreadCall.  A run is any interleaving of the atomic steps of
any number of producer threads and of the consumers' callbacks.
-/
namespace Salticidae

/-- C39.  At every moment of every run, with any number of producers and consumers (MPSC: `strict`
false, MPMC: `strict` true): if an element is in the queue, then the descriptor is readable, or a
callback is running that will look at the queue again or is about to make the descriptor readable, or
some `enqueue` has not returned yet and is still to signal; so when all enqueues have returned, all
callbacks have ended and the descriptor is not readable, the queue is empty: no element is left
unnoticed.  Elements come out in the order they went in. -/
theorem C39_no_lost_wakeup {α : Type} [DecidableEq α] (strict : Bool) (k : Nat) (as : List (EvQ.Act α)) (s : EvQ.St α)
    (h : EvQ.run strict (EvQ.init k) as = some s) :
    (s.q ≠ [] → 0 < s.fd ∨
      (∃ c ∈ s.cons, c = .exch ∨ c = .func ∨ c = .notify) ∨
      (∃ p ∈ s.prods, p = .exch ∨ p = .notify)) ∧
    ((∀ p ∈ s.prods, ∃ r, p = .done r) → (∀ c ∈ s.cons, c = .idle) → s.fd = 0 → s.q = []) ∧
    s.accepted = s.seen ++ s.q := by
  have hi := EvQ.inv_run as _ _ (EvQ.inv_init k) h
  have key : s.q ≠ [] → 0 < s.fd ∨ (∃ c ∈ s.cons, c = .exch ∨ c = .func ∨ c = .notify) ∨
      (∃ p ∈ s.prods, p = .exch ∨ p = .notify) := by
    intro hq
    rcases hi.look hq with h | h | h | h | h | h
    · exact .inl h
    · exact .inr (.inr ⟨_, h, .inr rfl⟩)
    · exact .inr (.inr ⟨_, h, .inl rfl⟩)
    · exact .inr (.inl ⟨_, h, .inl rfl⟩)
    · exact .inr (.inl ⟨_, h, .inr (.inl rfl)⟩)
    · exact .inr (.inl ⟨_, h, .inr (.inr rfl)⟩)
  refine ⟨key, ?_, hi.fifo⟩
  intro hp hc hf
  apply Classical.byContradiction
  intro hq
  rcases key hq with h | ⟨c, hm, h⟩ | ⟨p, hm, h⟩
  · omega
  · have := hc c hm; subst this; simp at h
  · obtain ⟨r, hr⟩ := hp p hm; subst hr; simp at h

/-- The consumer's loop `while (q.try_dequeue(x)) ...` empties the queue when nobody else runs. -/
private theorem deq_all {α : Type} (strict : Bool) (j : Nat) : ∀ (l : List α) (s : EvQ.St α), s.q = l → s.cons[j]? = some .func →
    EvQ.run strict s (List.replicate l.length (.deq j) ++ [.empty j]) =
      some { s with q := [], seen := s.seen ++ l, cons := s.cons.set j .idle }
  | [], s, hq, hc => by simp [EvQ.run, EvQ.step, hq, hc]
  | a :: l, s, hq, hc => by
    simp only [List.length_cons, List.replicate_succ, List.cons_append, EvQ.run, EvQ.step, hc, hq, Option.bind_some]
    rw [deq_all strict j l _ rfl (by exact hc)]
    simp

/-- C39, second part: the wake-up is used.  At every moment of every run at which all enqueues have returned and all callbacks have ended
while elements are in the queue, the event loop of any consumer can take the next step, and that consumer's callback alone, run to its
end with nobody else acting, hands out all of them: nothing is left, and everything accepted has been handed out in order. -/
theorem C39_served {α : Type} [DecidableEq α] (strict : Bool) (k : Nat) (as : List (EvQ.Act α)) (s : EvQ.St α)
    (h : EvQ.run strict (EvQ.init k) as = some s) (hp : ∀ p ∈ s.prods, ∃ r, p = .done r) (hc : ∀ c ∈ s.cons, c = .idle)
    (hq : s.q ≠ []) (j : Nat) (hj : j < s.cons.length) :
    ∃ s', EvQ.run strict s ([.fire j, .cons j, .cons j] ++ (List.replicate s.q.length (.deq j) ++ [.empty j])) = some s' ∧
      s'.q = [] ∧ s'.seen = s.accepted ∧ s'.accepted = s.accepted ∧ (∀ c ∈ s'.cons, c = .idle) := by
  obtain ⟨h1, h2, h3⟩ := C39_no_lost_wakeup strict k as s h
  have hf : 0 < s.fd := by
    apply Classical.byContradiction
    intro hn
    exact hq (h2 hp hc (by omega))
  have hi : s.cons[j]? = some .idle := by
    rw [List.getElem?_eq_getElem hj, hc _ (List.getElem_mem hj)]
  have hne : (s.fd == 0) = false := by simp; omega
  refine ⟨{ s with fd := 0, waitSig := true, q := [], seen := s.seen ++ s.q, cons := (((s.cons.set j .reset).set j .exch).set j .func).set j .idle },
    ?_, rfl, h3.symm, rfl, ?_⟩
  · simp only [List.cons_append, List.nil_append, EvQ.run, EvQ.step, hi, hf, and_self, if_true, Option.bind_some, List.getElem?_set, hj, List.length_set, hne,
      Bool.and_false, Bool.false_eq_true, if_false]
    exact deq_all strict j s.q { s with fd := 0, waitSig := true, cons := ((s.cons.set j .reset).set j .exch).set j .func } rfl (by simp [hj])
  · intro c hm
    simp only [List.set_set] at hm
    rcases List.mem_or_eq_of_mem_set hm with hm | hm
    · exact hc c hm
    · exact hm

/-- Two producers; the second enqueues while the callback is between reset and exchange. -/
example : EvQ.run (α := Nat) false (EvQ.init 1)
    [.call 1, .prod 0, .prod 0, .prod 0, .fire 0, .cons 0, .call 2, .prod 1, .prod 1, .cons 0, .deq 0, .deq 0, .empty 0] =
    some ⟨[], true, 0, [.done true, .done true], [.idle], [1, 2], [1, 2]⟩ := by decide

/-- A wake-up is needed: an idle consumer, an element in the queue and a readable descriptor. -/
example : EvQ.run (α := Nat) false (EvQ.init 1) [.call 1, .prod 0, .prod 0, .prod 0] =
    some ⟨[1], false, 1, [.done true], [.idle], [1], []⟩ := by decide

open TC

/-- The results of finished calls are the calls' own results. -/
private theorem filter_results : ∀ (l : List (Call × Bool)), (∀ x ∈ l, x.2 = false) →
    l.filterMap (fun x => if x.1.sync then some (x.1.id, result x.1 x.2) else none) = Spec.TC.results (l.map (·.1)) := by
  intro l
  induction l with
  | nil => intro _; rfl
  | cons x l ih =>
    intro h
    obtain ⟨c, b⟩ := x
    have hb : b = false := h (c, b) (by simp)
    subst hb
    have := ih (fun y hy => h y (List.mem_cons_of_mem _ hy))
    simp only [List.filterMap_cons, List.map_cons, Spec.TC.results]
    by_cases hs : c.sync = true
    · simp only [hs, if_true, this]; rfl
    · simp [hs, this]

/-- C40.  In every run of a ThreadCall that is neither stopped nor destroyed, for every burst size:
the calls executed so far, in the order in which they were executed, followed by the calls still queued,
are exactly the accepted calls in the order in which they were accepted, none twice; synchronous callers
have been given exactly the own results of calls executed, in order. When everything is at rest, all
accepted calls have been executed and all their results handed out.  The order of acceptance never
changes: later calls come after all calls accepted before. -/
theorem C40_once_in_order (burst : Nat) (as₁ as₂ : List Act) (s₁ s : St)
    (hs : .stop ∉ as₁ ++ as₂) (hd : .destroy ∉ as₁ ++ as₂)
    (h₁ : run burst init as₁ = some s₁) (h : run burst s₁ as₂ = some s) :
    s.ev.accepted = s.executed.map (·.1) ++ s.ev.q ∧
    (∃ fin, fin <+: s.executed.map (·.1) ∧ s.delivered = Spec.TC.results fin ∧
      (s.cur = none → fin = s.executed.map (·.1))) ∧
    (∀ x ∈ s.executed, x.2 = false) ∧
    (atRest s = true → s.executed.map (·.1) = s.ev.accepted ∧ s.delivered = Spec.TC.results s.ev.accepted) ∧
    s₁.ev.accepted <+: s.ev.accepted := by
  simp only [List.mem_append, not_or] at hs hd
  have hi₁ := inv_run as₁ _ _ inv_init hd.1 h₁
  have hi := inv_run as₂ _ _ hi₁ hd.2 h
  have hdead := dead_run as₂ _ _ (dead_run as₁ _ _ rfl hd.1 h₁) hd.2 h
  have hg₁ := (grow_run as₁ _ _ h₁).2 hs.1 rfl (by simp [init])
  have hg := grow_run as₂ _ _ h
  have hg2 := hg.2 hs.2 hg₁.1 hg₁.2
  have hacc : s.ev.accepted = s.executed.map (·.1) ++ s.ev.q := by rw [hi.seen]; exact hi.ev.fifo
  have hfin : ∀ x ∈ finished s, x.2 = false := by
    intro x hx
    apply hg2.2
    unfold finished at hx
    split at hx
    · exact hx
    · exact List.dropLast_subset _ hx
  have hdel : s.delivered = Spec.TC.results ((finished s).map (·.1)) := by
    rw [hi.del, filter_results _ hfin]
  refine ⟨hacc, ⟨_, ?_, hdel, ?_⟩, hg2.2, ?_, hg.1⟩
  · unfold finished
    split
    · exact List.prefix_refl _
    · exact (List.dropLast_prefix _).map _
  · intro hc; simp [finished, hc]
  · intro hr
    obtain ⟨hq, hc⟩ := rest_empty hi hdead hr
    rw [hq, List.append_nil] at hacc
    refine ⟨hacc.symm, ?_⟩
    rw [hdel, hacc]; simp [finished, hc]

/-- C40, progress.  Whatever has happened before (also after `stop`), the event loop needs at most
`12 * queued + 11` further steps if no more calls arrive, and as long as it is not at rest (and no
`enqueue` is in progress) it has a step to make: it cannot get stuck with a call in the queue, whatever
the burst size. -/
theorem C40_progress (burst : Nat) (as : List Act) (s : St) (hd : .destroy ∉ as) (h : run burst init as = some s) :
    (∀ bs s', (∀ a ∈ bs, loopStep a = true) → run burst s bs = some s' → bs.length ≤ 12 * s.ev.q.length + 11) ∧
    (returned s.ev = true → atRest s = false → ∃ a s', loopStep a = true ∧ step burst s a = some s') := by
  have hi := inv_run as _ _ inv_init hd h
  refine ⟨fun bs s' hl hr => ?_, fun hp hr => can_step hi (dead_run as _ _ rfl hd h) hp hr⟩
  have := work_run bs s s' hi hl hr
  have := work_le hi
  omega

/-- Burst size 1, a synchronous call that throws and an asynchronous one: both run, one wake-up each. -/
example : ∃ s, run 1 init [.submit ⟨7, true, .throws 3⟩, .prod 0, .submit ⟨8, false, .ret none⟩, .prod 1, .prod 1, .prod 1,
      .prod 0, .fire, .cb, .cb, .take, .finish, .cb, .fire, .cb, .cb, .take, .finish, .cb, .fire, .cb, .cb, .idle] = some s ∧
    atRest s = true ∧ s.delivered = [(7, .error 3)] ∧ s.executed.length = 2 := ⟨_, rfl, by decide⟩

/-- C41 as stated: when everything is at rest, every accepted synchronous call has been given a
result. -/
def C41_statement : Prop :=
  ∀ (burst : Nat) (as : List Act) (s : St), run burst init as = some s → atRest s = true →
    ∀ c ∈ s.ev.accepted, c.sync = true → ∃ r, (c.id, r) ∈ s.delivered

/-- The destructor deletes queued calls without telling their callers, who wait for ever. -/
theorem C41_violated : ¬ C41_statement := by
  intro h
  obtain ⟨r, hr⟩ := h 128 [.submit ⟨7, true, .ret none⟩, .prod 0, .prod 0, .prod 0, .destroy] _ rfl (by decide)
    ⟨7, true, .ret none⟩ (by decide) rfl
  simp [init] at hr

/-- What holds of C41: as long as the ThreadCall is not destroyed, stopped or not, every accepted
synchronous call has been given a result when everything is at rest: its own result, or the error
NOT_AVAIL if `stop` had been called (and rest is reached, C40_progress).  After `stop` has been called
the callbacks of calls still queued are not run.  Missing: destruction with calls queued. -/
theorem C41_returns_partial (burst : Nat) (as : List Act) (s : St) (hd : .destroy ∉ as)
    (h : run burst init as = some s) (hr : atRest s = true) :
    ∀ c ∈ s.ev.accepted, c.sync = true → ∃ r, (c.id, r) ∈ s.delivered ∧
      (r = Spec.TC.own c ∨ (r = .notAvail ∧ .stop ∈ as)) := by
  have hi := inv_run as _ _ inv_init hd h
  obtain ⟨hq, hc⟩ := rest_empty hi (dead_run as _ _ rfl hd h) hr
  intro c hm hsync
  have hacc : s.ev.accepted = s.executed.map (·.1) := by
    have := hi.ev.fifo; rw [hq, List.append_nil] at this; rw [this, hi.seen]
  rw [hacc, List.mem_map] at hm
  obtain ⟨⟨c', b⟩, hx, hce⟩ := hm
  simp only at hce
  subst hce
  refine ⟨result c' b, ?_, ?_⟩
  · rw [hi.del]
    simp only [finished, hc, List.mem_filterMap]
    exact ⟨(c', b), hx, by simp [hsync]⟩
  · cases b with
    | false => left; rfl
    | true =>
      right
      refine ⟨rfl, ?_⟩
      apply Classical.byContradiction
      intro hns
      have := ((grow_run as _ _ h).2 hns rfl (by simp [init])).2 _ hx
      simp at this

/-- After `stop`, queued synchronous calls come back with NOT_AVAIL. -/
example : ∃ s, run 128 init [.submit ⟨7, true, .ret (some 5)⟩, .prod 0, .prod 0, .prod 0, .stop, .fire, .cb, .cb, .take, .finish,
    .idle] = some s ∧ atRest s = true ∧ s.delivered = [(7, .notAvail)] := ⟨_, rfl, by decide⟩

/-- What destruction does, for every run that ends with it: the calls deleted are exactly the accepted ones that had not been executed, in
order, so the callers that never get an answer are those of deleted calls and nobody else; and nothing can be done with the ThreadCall any
more.  Missing: an answer for those callers. -/
theorem C41_destroyed_partial (burst : Nat) (as : List Act) (s : St) (hd : .destroy ∉ as)
    (h : run burst init (as ++ [.destroy]) = some s) :
    s.ev.accepted = s.executed.map (·.1) ++ s.dropped ∧
    (∀ c ∈ s.ev.accepted, c.sync = true → c ∈ s.dropped ∨ ∃ r, (c.id, r) ∈ s.delivered ∧
      (r = Spec.TC.own c ∨ (r = .notAvail ∧ .stop ∈ as))) ∧
    (∀ a, step burst s a = none) := by
  have hsplit : ∀ (as : List Act) (s0 s : St), run burst s0 (as ++ [.destroy]) = some s → ∃ s1, run burst s0 as = some s1 ∧
      step burst s1 .destroy = some s := by
    intro as
    induction as with
    | nil =>
      intro s0 s h
      refine ⟨s0, rfl, ?_⟩
      simp only [List.nil_append, run] at h
      rcases e : step burst s0 .destroy with _ | s1
      · rw [e] at h; cases h
      · rw [e] at h; simpa using h
    | cons a as ih =>
      intro s0 s h
      simp only [List.cons_append, run] at h ⊢
      rcases e : step burst s0 a with _ | s1
      · rw [e] at h; cases h
      · rw [e] at h; simpa using ih s1 s h
  obtain ⟨s1, h1, h2⟩ := hsplit as init s h
  have hi := inv_run as _ _ inv_init hd h1
  have hdead := dead_run as _ _ rfl hd h1
  simp only [step, hdead, Bool.false_eq_true, if_false] at h2
  split at h2
  · rename_i hcon
    cases h2
    have hcur : s1.cur = none := by
      obtain ⟨c, hc, hf⟩ := hi.one
      cases e : s1.cur with
      | none => rfl
      | some x =>
        have := hf (by rw [e]; rfl)
        rw [hc, this] at hcon; simp at hcon
    have hacc : s1.ev.accepted = s1.executed.map (·.1) ++ s1.ev.q := by rw [hi.seen]; exact hi.ev.fifo
    refine ⟨hacc, fun c hm hsync => ?_, fun a => by simp [step]⟩
    have hm : c ∈ s1.ev.accepted := hm
    rw [hacc, List.mem_append, List.mem_map] at hm
    rcases hm with ⟨⟨c', b⟩, hx, hce⟩ | hm
    · right
      simp only at hce
      subst hce
      refine ⟨result c' b, ?_, ?_⟩
      · show (c'.id, result c' b) ∈ s1.delivered
        rw [hi.del]
        simp only [finished, hcur, List.mem_filterMap]
        exact ⟨(c', b), hx, by simp [hsync]⟩
      · cases b with
        | false => left; rfl
        | true =>
          right
          refine ⟨rfl, ?_⟩
          apply Classical.byContradiction
          intro hns
          have := ((grow_run as _ _ h1).2 hns rfl (by simp [init])).2 _ hx
          simp at this
    · exact .inl hm
  · cases h2

/-- Destroyed after the first of three calls: the other two are deleted. -/
example : ∃ s, run 1 init ([.submit ⟨7, true, .ret (some 5)⟩, .prod 0, .prod 0, .prod 0, .submit ⟨8, true, .ret none⟩, .prod 1, .prod 1,
    .submit ⟨9, false, .ret none⟩, .prod 2, .prod 2, .fire, .cb, .cb, .take, .finish, .cb] ++ [.destroy]) = some s ∧
    s.delivered = [(7, .ok (some 5))] ∧ s.dropped.map (·.id) = [8, 9] := ⟨_, rfl, by decide⟩

end Salticidae
