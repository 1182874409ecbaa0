import Verif.Lemmas.Dispatch
/-
C33: received messages reach the handlers.
-/
namespace Salticidae
open Disp

/-- C33.  In every run of a started network, for every burst size, behaviour of the handlers, history of
registrations and interleaving with the worker threads: the messages handled so far are, in order, the
first ones accepted into the queue, each exactly once; each was given to the handler registered last for
its opcode at that time, or to nobody if there was none, and nothing else was called; the connections
asked to terminate are exactly those of the messages on which a handler threw, in order; the loop dies
only from an exception which `reg_handler` does not catch.  At rest every accepted message has been
handled. -/
theorem C33_dispatch (beh : Handler → Msg → Beh) (burst : Nat) (as : List Act) (s : St) (hs : .stop ∉ as)
    (h : run beh burst init as = some s) :
    s.ev.accepted = Spec.Disp.msgs s.hist ++ s.ev.q ∧
    Spec.Disp.Delivered [] s.hist s.calls ∧
    (s.crashed = false → s.terminated = (s.calls.filter (fun x => beh x.1 x.2 ≠ .ok)).map (·.2.conn)) ∧
    (s.crashed = true → ∃ x ∈ s.calls, beh x.1 x.2 = .otherExn ∨ (beh x.1 x.2 = .stdExn ∧ x.1.catches = false)) ∧
    (atRest s = true → Spec.Disp.msgs s.hist = s.ev.accepted) := by
  obtain ⟨hi, _⟩ := inv_run as _ _ inv_init rfl hs h
  have hacc : s.ev.accepted = Spec.Disp.msgs s.hist ++ s.ev.q := by rw [hi.seen]; exact hi.ev.fifo
  refine ⟨hacc, hi.del, fun hc => (hi.term hc).1, hi.crash, fun hr => ?_⟩
  simp only [atRest, Bool.and_eq_true, beq_iff_eq] at hr
  obtain ⟨⟨hp, hc⟩, hf⟩ := hr
  have hnp : ∀ p, (∀ r, p ≠ .done r) → p ∉ s.ev.prods := by
    intro p hp' hm
    have := List.all_eq_true.1 hp p hm
    cases p <;> simp at this
    exact hp' _ rfl
  have hq : s.ev.q = [] := by
    apply Classical.byContradiction
    intro hq
    rcases hi.ev.look hq with h | h | h | h | h | h
    · omega
    · exact hnp _ (by simp) h
    · exact hnp _ (by simp) h
    all_goals (rw [hc] at h; simp at h)
  rw [hq, List.append_nil] at hacc
  exact hacc.symm

/-- C33, the burst size.  Between two wake-ups at most `burst` messages are handled (for `burst` ≥ 1;
0 means no limit). -/
theorem C33_burst (beh : Handler → Msg → Beh) (burst : Nat) (hb : 0 < burst) (as bs : List Act) (s s' : St)
    (h : run beh burst init as = some s) (h' : run beh burst s bs = some s') (hf : .fire ∉ bs) :
    (Spec.Disp.msgs s'.hist).length ≤ (Spec.Disp.msgs s.hist).length + burst := by
  rcases low_run hb as _ _ ⟨⟨_, rfl⟩, by simp [init, EvQ.init]⟩ h with hl | hc
  · by_cases hc : s.crashed = true
    · cases bs with
      | nil => cases h'; omega
      | cons a bs => simp [run, step, hc] at h'
    · have := room_run hb bs s s' hl (by simpa using hc) hf h'
      have : room burst s ≤ burst := by unfold room; split <;> omega
      omega
  · cases bs with
    | nil => cases h'; omega
    | cons a bs => simp [run, step, hc] at h'

/-- C33, failing handlers.  With only `reg_handler` handlers whose failures are std::exceptions (what
parsing throws) the loop never dies. -/
theorem C33_survives (beh : Handler → Msg → Beh) (burst : Nat) (as : List Act) (s : St) (hs : .stop ∉ as)
    (h : run beh burst init as = some s) (hb : ∀ h m, beh h m ≠ .otherExn)
    (hc : ∀ x ∈ s.calls, x.1.catches = true) : s.crashed = false := by
  obtain ⟨hi, _⟩ := inv_run as _ _ inv_init rfl hs h
  cases e : s.crashed with
  | false => rfl
  | true =>
    obtain ⟨x, hx, h | h⟩ := hi.crash e
    · exact absurd h (hb _ _)
    · rw [hc x hx] at h; simp at h

/-- Two messages, one handler re-registered in between, one failing parse, an unknown opcode; burst 2. -/
example : ∃ s, run (fun _ m => if m.tag = 9 then .stdExn else .ok) 2 init
    [.reg 1 ⟨10, true⟩, .recv ⟨1, 100, 0⟩, .prod 0, .prod 0, .prod 0, .recv ⟨5, 100, 0⟩, .prod 1, .prod 1, .recv ⟨1, 101, 9⟩,
     .prod 2, .prod 2, .fire, .cb, .cb, .handle, .reg 1 ⟨11, true⟩, .handle, .cb, .fire, .cb, .cb, .handle, .idle] = some s ∧
    s.calls = [(⟨10, true⟩, ⟨1, 100, 0⟩), (⟨11, true⟩, ⟨1, 101, 9⟩)] ∧ s.terminated = [101] ∧ atRest s = true :=
  ⟨_, rfl, by decide⟩

end Salticidae
