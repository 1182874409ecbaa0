import Verif.Spec.Dispatch
import Verif.Lemmas.EvQueue
namespace Salticidae
namespace Disp
open Spec.Disp

theorem lastReg_append (op : Nat) (es fs : List Event) :
    lastReg op (es ++ fs) = (lastReg op fs).or (lastReg op es) := by
  induction es with
  | nil => simp [lastReg]
  | cons e es ih =>
    cases e with
    | msg m => simpa [lastReg] using ih
    | reg o h =>
      simp only [List.cons_append, lastReg, ih]
      cases lastReg op fs <;> simp

theorem find_set (hs : List (Nat × Handler)) (op o : Nat) (h : Handler) :
    findHandler (setHandler hs op h) o = if op = o then some h else findHandler hs o := by
  unfold findHandler setHandler
  by_cases e : op = o
  · simp [e]
  · rw [if_neg e]
    simp only [List.find?_cons, e, decide_false]
    congr 1
    induction hs with
    | nil => rfl
    | cons x hs ih =>
      rw [List.filter_cons]
      by_cases hx : x.1 = op
      · have : x.1 ≠ o := fun h' => e (hx ▸ h')
        rw [if_neg (by simp [hx]), ih, List.find?_cons]
        simp [this]
      · simp only [hx, ne_eq, not_false_eq_true, decide_true, if_true, List.find?_cons, ih]

theorem delivered_append {past es calls} (h : Delivered past es calls) {fs calls'}
    (h' : Delivered (past ++ es) fs calls') : Delivered past (es ++ fs) (calls ++ calls') := by
  induction h with
  | nil past => simpa using h'
  | reg hd ih => exact .reg (ih (by simpa using h'))
  | drop hn hd ih => exact .drop hn (ih (by simpa using h'))
  | call hn hd ih => exact .call hn (ih (by simpa using h'))

structure Inv (beh : Handler → Msg → Beh) (burst : Nat) (s : St) : Prop where
  ev : EvQ.Inv s.ev
  one : ∃ c, s.ev.cons = [c]
  tbl : ∀ op, findHandler s.handlers op = lastReg op s.hist
  del : Delivered [] s.hist s.calls
  seen : msgs s.hist = s.ev.seen
  term : s.crashed = false → s.terminated = (s.calls.filter (fun x => beh x.1 x.2 ≠ .ok)).map (·.2.conn) ∧
    ∀ x ∈ s.calls, beh x.1 x.2 = .ok ∨ (beh x.1 x.2 = .stdExn ∧ x.1.catches = true)
  crash : s.crashed = true → ∃ x ∈ s.calls, beh x.1 x.2 = .otherExn ∨ (beh x.1 x.2 = .stdExn ∧ x.1.catches = false)

theorem inv_init {beh burst} : Inv beh burst init :=
  ⟨EvQ.inv_init 1, ⟨_, rfl⟩, fun _ => rfl, .nil _, rfl, by simp [init], by simp [init]⟩

theorem msgs_append (a b : List Event) : msgs (a ++ b) = msgs a ++ msgs b := by simp [msgs]

/-- The effect of handling one message on everything but the queue. -/
theorem handleOne_inv {beh burst} {s : St} {ev : EvQ.St Msg} {m : Msg} {n : Nat} (hi : Inv beh burst s) (hc : s.crashed = false)
    (s' : St) (h : s' = handleOne beh { s with ev := ev, cnt := n } m) :
    s'.ev = ev ∧ (∀ op, findHandler s'.handlers op = lastReg op s'.hist) ∧ Delivered [] s'.hist s'.calls ∧
    msgs s'.hist = msgs s.hist ++ [m] ∧
    (s'.crashed = false → s'.terminated = (s'.calls.filter (fun x => beh x.1 x.2 ≠ .ok)).map (·.2.conn) ∧
      ∀ x ∈ s'.calls, beh x.1 x.2 = .ok ∨ (beh x.1 x.2 = .stdExn ∧ x.1.catches = true)) ∧
    (s'.crashed = true → ∃ x ∈ s'.calls, beh x.1 x.2 = .otherExn ∨ (beh x.1 x.2 = .stdExn ∧ x.1.catches = false)) ∧
    s'.sys = s.sys ∧ s'.cnt = n := by
  have hmsg : msgs [Event.msg m] = [m] := rfl
  have htbl : ∀ op, findHandler s.handlers op = lastReg op (s.hist ++ [.msg m]) := by
    intro op; rw [lastReg_append]; simp [lastReg, hi.tbl op]
  obtain ⟨ht, hb⟩ := hi.term hc
  simp only [handleOne] at h
  rcases hf : findHandler s.handlers m.op with _ | hd
  · rw [hf] at h
    simp only at h
    subst h
    have hd : Delivered [] (s.hist ++ [.msg m]) (s.calls ++ []) :=
      delivered_append hi.del (.drop (by rw [List.nil_append, ← hi.tbl]; exact hf) (.nil _))
    rw [List.append_nil] at hd
    exact ⟨rfl, htbl, hd, by simp [msgs_append, hmsg], fun _ => ⟨ht, hb⟩, fun h => by simp [hc] at h, rfl, rfl⟩
  · rw [hf] at h
    simp only at h
    have hdl : Delivered [] (s.hist ++ [.msg m]) (s.calls ++ [(hd, m)]) :=
      delivered_append hi.del (.call (by rw [List.nil_append, ← hi.tbl]; exact hf) (.nil _))
    rcases hbe : beh hd m with _ | _ | _
    · rw [hbe] at h; simp only at h; subst h
      refine ⟨rfl, htbl, hdl, by simp [msgs_append, hmsg], fun _ => ⟨?_, ?_⟩, fun h => by simp [hc] at h, rfl, rfl⟩
      · simp [List.filter_append, hbe, ht]
      · intro x hx
        rcases List.mem_append.1 hx with hx | hx
        · exact hb x hx
        · simp at hx; subst hx; exact .inl hbe
    · rw [hbe] at h; simp only at h
      by_cases hcat : hd.catches = true
      · rw [if_pos hcat] at h; subst h
        refine ⟨rfl, htbl, hdl, by simp [msgs_append, hmsg], fun _ => ⟨?_, ?_⟩, fun h => by simp [hc] at h, rfl, rfl⟩
        · simp [List.filter_append, hbe, ht]
        · intro x hx
          rcases List.mem_append.1 hx with hx | hx
          · exact hb x hx
          · simp at hx; subst hx; exact .inr ⟨hbe, hcat⟩
      · rw [if_neg hcat] at h; subst h
        refine ⟨rfl, htbl, hdl, by simp [msgs_append, hmsg], fun h => by simp at h, fun _ => ?_, rfl, rfl⟩
        exact ⟨(hd, m), by simp, .inr ⟨hbe, by simpa using hcat⟩⟩
    · rw [hbe] at h; simp only at h; subst h
      refine ⟨rfl, htbl, hdl, by simp [msgs_append, hmsg], fun h => by simp at h, fun _ => ?_, rfl, rfl⟩
      exact ⟨(hd, m), by simp, .inl hbe⟩

theorem inv_step {beh burst} {s s' : St} {a : Act} (hi : Inv beh burst s) (h : step beh burst s a = some s')
    (hs : s.sys = 1) : Inv beh burst s' := by
  have hi' := hi
  obtain ⟨h1, ⟨c, hcc⟩, h3, h4, h5, h6, h7⟩ := hi
  unfold step at h
  split at h
  · cases h
  rename_i hcr
  cases a with
  | reg op hd =>
    cases h
    refine ⟨h1, ⟨c, hcc⟩, ?_, ?_, by rw [msgs_append]; simpa [msgs] using h5, h6, h7⟩
    · intro o
      show findHandler (setHandler s.handlers op hd) o = lastReg o (s.hist ++ [.reg op hd])
      rw [find_set, lastReg_append]
      by_cases e : op = o
      · simp [lastReg, e]
      · simp [lastReg, e, h3 o]
    · have := delivered_append h4 (fs := [.reg op hd]) (.reg (.nil _))
      simpa using this
  | stop => cases h; exact ⟨h1, ⟨c, hcc⟩, h3, h4, h5, h6, h7⟩
  | recv m =>
    simp only at h
    obtain ⟨ev, e, rfl⟩ := Option.map_eq_some_iff.1 h
    have e' := e
    simp only [EvQ.step] at e'; cases e'
    exact ⟨EvQ.inv_step h1 e, ⟨c, hcc⟩, h3, h4, h5, h6, h7⟩
  | prod i =>
    simp only at h
    obtain ⟨ev, e, rfl⟩ := Option.map_eq_some_iff.1 h
    have e' := e
    simp only [EvQ.step] at e'
    split at e' <;> cases e'
    all_goals exact ⟨EvQ.inv_step h1 e, ⟨c, hcc⟩, h3, h4, h5, h6, h7⟩
  | refuse i =>
    simp only at h
    obtain ⟨ev, e, rfl⟩ := Option.map_eq_some_iff.1 h
    have e' := e
    simp only [EvQ.step] at e'
    split at e' <;> cases e'
    exact ⟨EvQ.inv_step h1 e, ⟨c, hcc⟩, h3, h4, h5, h6, h7⟩
  | fire =>
    simp only at h
    obtain ⟨ev, e, rfl⟩ := Option.map_eq_some_iff.1 h
    have e' := e
    simp only [EvQ.step, hcc] at e'
    split at e' <;> cases e'
    exact ⟨EvQ.inv_step h1 e, ⟨_, rfl⟩, h3, h4, h5, h6, h7⟩
  | cb =>
    simp only at h
    obtain ⟨ev, e, rfl⟩ := Option.map_eq_some_iff.1 h
    have e' := e
    simp only [EvQ.step, hcc, List.getElem?_cons_zero] at e'
    cases c <;> simp at e' <;> subst e'
    all_goals exact ⟨EvQ.inv_step h1 e, ⟨_, rfl⟩, h3, h4, h5, h6, h7⟩
  | idle =>
    simp only at h
    obtain ⟨ev, e, rfl⟩ := Option.map_eq_some_iff.1 h
    have e' := e
    simp only [EvQ.step, hcc, List.getElem?_cons_zero] at e'
    split at e' <;> cases e'
    exact ⟨EvQ.inv_step h1 e, ⟨_, rfl⟩, h3, h4, h5, h6, h7⟩
  | handle =>
    simp only at h
    rcases hq : s.ev.q with _ | ⟨m, q⟩
    · rw [hq] at h; cases h
    · rw [hq] at h
      simp only at h
      rcases e : EvQ.step false s.ev (.deq 0) with _ | ev
      · rw [e] at h; cases h
      · rw [e] at h
        simp only at h
        rw [if_neg (by simp [hs])] at h
        have hev := EvQ.inv_step h1 e
        have e' := e
        simp only [EvQ.step, hcc, List.getElem?_cons_zero, hq] at e'
        cases c <;> simp at e'
        have hseen : ev.seen = s.ev.seen ++ [m] := by rw [← e']
        have hcons : ev.cons = [.func] := by rw [← e']
        generalize hs1 : handleOne beh { s with ev := ev, cnt := s.cnt + 1 } m = s1 at h
        have hk := handleOne_inv hi' (by simpa using hcr) s1 hs1.symm
        obtain ⟨k1, k2, k3, k4, k5, k6, k7, k8⟩ := hk
        have hinv1 : Inv beh burst s1 :=
          ⟨by rw [k1]; exact hev, ⟨.func, by rw [k1]; exact hcons⟩, k2, k3, by rw [k4, k1, hseen, h5], k5, k6⟩
        split at h
        · cases h; exact hinv1
        · split at h
          · obtain ⟨ev2, e2, rfl⟩ := Option.map_eq_some_iff.1 h
            have e2' := e2
            simp only [EvQ.step, hcons, List.getElem?_cons_zero] at e2'
            cases e2'
            exact ⟨EvQ.inv_step hev e2, ⟨_, rfl⟩, k2, k3, by rw [k4, hseen, h5], k5, k6⟩
          · cases h; exact hinv1

theorem sys_step {beh burst} {s s' : St} {a : Act} (h : step beh burst s a = some s') (ha : a ≠ .stop) : s'.sys = s.sys := by
  unfold step at h
  split at h
  · cases h
  cases a with
  | stop => exact absurd rfl ha
  | reg op hd => cases h; rfl
  | handle =>
    simp only at h
    split at h
    · cases h
    · split at h
      · cases h
      · split at h
        · cases h; rfl
        · have : ∀ s1 m, (handleOne beh s1 m).sys = s1.sys := by
            intro s1 m
            simp only [handleOne]
            split
            · rfl
            · split
              · rfl
              · split <;> rfl
              · rfl
          split at h
          · cases h; exact this _ _
          · split at h
            · obtain ⟨ev, e, rfl⟩ := Option.map_eq_some_iff.1 h; exact this _ _
            · cases h; exact this _ _
  | _ =>
    simp only at h
    obtain ⟨ev, e, rfl⟩ := Option.map_eq_some_iff.1 h
    rfl

theorem inv_run {beh burst} : ∀ (as : List Act) (s s' : St), Inv beh burst s → s.sys = 1 → .stop ∉ as →
    run beh burst s as = some s' → Inv beh burst s' ∧ s'.sys = 1 := by
  intro as
  induction as with
  | nil => intro s s' hi hs _ h; cases h; exact ⟨hi, hs⟩
  | cons a as ih =>
    intro s s' hi hs hn h
    simp only [run] at h
    rcases e : step beh burst s a with _ | s1
    · rw [e] at h; cases h
    · rw [e] at h
      simp only [List.mem_cons, not_or] at hn
      exact ih s1 s' (inv_step hi e hs) (by rw [sys_step e (fun h => hn.1 h.symm)]; exact hs) hn.2 h

/-- How many messages the running activation may still handle. -/
def room (burst : Nat) (s : St) : Nat := match s.ev.cons with
  | [.reset] => burst
  | [.exch] => burst
  | [.func] => burst - s.cnt
  | _ => 0

/-- In `func` the count is below the burst size. -/
def Low (burst : Nat) (s : St) : Prop := (∃ c, s.ev.cons = [c]) ∧ (s.ev.cons = [.func] → s.cnt < burst)

theorem room_step {beh burst} {s s' : St} {a : Act} (hb : 0 < burst) (hl : Low burst s) (h : step beh burst s a = some s') :
    (Low burst s' ∨ s'.crashed = true) ∧
    (a ≠ .fire → (msgs s'.hist).length + (if s'.crashed then 0 else room burst s') ≤ (msgs s.hist).length + room burst s) := by
  obtain ⟨⟨c, hcc⟩, hlt⟩ := hl
  unfold step at h
  split at h
  · cases h
  rename_i hcr
  have hcr : s.crashed = false := by simpa using hcr
  cases a with
  | reg op hd =>
    cases h
    exact ⟨.inl ⟨⟨c, hcc⟩, hlt⟩, fun _ => by simp [msgs_append, msgs, room, hcr]⟩
  | stop => cases h; exact ⟨.inl ⟨⟨c, hcc⟩, hlt⟩, fun _ => by simp [room, hcr]⟩
  | recv m =>
    simp only at h
    obtain ⟨ev, e, rfl⟩ := Option.map_eq_some_iff.1 h
    simp only [EvQ.step] at e; cases e
    exact ⟨.inl ⟨⟨c, hcc⟩, hlt⟩, fun _ => by simp [room, hcr]⟩
  | prod i =>
    simp only at h
    obtain ⟨ev, e, rfl⟩ := Option.map_eq_some_iff.1 h
    simp only [EvQ.step] at e
    split at e <;> cases e
    all_goals exact ⟨.inl ⟨⟨c, hcc⟩, hlt⟩, fun _ => by simp [room, hcr]⟩
  | refuse i =>
    simp only at h
    obtain ⟨ev, e, rfl⟩ := Option.map_eq_some_iff.1 h
    simp only [EvQ.step] at e
    split at e <;> cases e
    exact ⟨.inl ⟨⟨c, hcc⟩, hlt⟩, fun _ => by simp [room, hcr]⟩
  | fire =>
    simp only at h
    obtain ⟨ev, e, rfl⟩ := Option.map_eq_some_iff.1 h
    simp only [EvQ.step, hcc] at e
    split at e <;> cases e
    exact ⟨.inl ⟨⟨_, rfl⟩, by simp⟩, fun h => absurd rfl h⟩
  | cb =>
    simp only at h
    obtain ⟨ev, e, rfl⟩ := Option.map_eq_some_iff.1 h
    simp only [EvQ.step, hcc, List.getElem?_cons_zero] at e
    cases c <;> simp at e <;> subst e
    · exact ⟨.inl ⟨⟨_, rfl⟩, by simp⟩, fun _ => by simp [room, hcr, hcc]⟩
    · exact ⟨.inl ⟨⟨_, rfl⟩, fun _ => hb⟩, fun _ => by simp [room, hcr, hcc]⟩
    · exact ⟨.inl ⟨⟨_, rfl⟩, by simp⟩, fun _ => by simp [room, hcr]⟩
  | idle =>
    simp only at h
    obtain ⟨ev, e, rfl⟩ := Option.map_eq_some_iff.1 h
    simp only [EvQ.step, hcc, List.getElem?_cons_zero] at e
    split at e <;> cases e
    exact ⟨.inl ⟨⟨_, rfl⟩, by simp⟩, fun _ => by simp [room, hcr]⟩
  | handle =>
    simp only at h
    rcases hq : s.ev.q with _ | ⟨m, q⟩
    · rw [hq] at h; cases h
    · rw [hq] at h
      simp only at h
      rcases e : EvQ.step false s.ev (.deq 0) with _ | ev
      · rw [e] at h; cases h
      · rw [e] at h
        simp only at h
        simp only [EvQ.step, hcc, List.getElem?_cons_zero, hq] at e
        cases c <;> simp at e
        have hcons : ev.cons = [.func] := by rw [← e]
        have hlt := hlt hcc
        split at h
        · cases h
          exact ⟨.inl ⟨⟨_, rfl⟩, by simp⟩, fun _ => by simp [room, hcr]⟩
        · generalize hs1 : handleOne beh { s with ev := ev, cnt := s.cnt + 1 } m = s1 at h
          have hk : s1.ev = ev ∧ s1.cnt = s.cnt + 1 ∧ msgs s1.hist = msgs s.hist ++ [m] := by
            rw [← hs1]
            simp only [handleOne]
            have hm : msgs (s.hist ++ [.msg m]) = msgs s.hist ++ [m] := by rw [msgs_append]; rfl
            split
            · exact ⟨rfl, rfl, hm⟩
            · split
              · exact ⟨rfl, rfl, hm⟩
              · split <;> exact ⟨rfl, rfl, hm⟩
              · exact ⟨rfl, rfl, hm⟩
          obtain ⟨k1, k2, k3⟩ := hk
          split at h
          · cases h
            rename_i hcr1
            exact ⟨.inr hcr1, fun _ => by simp [hcr1, k3, room, hcc]; omega⟩
          · rename_i hcr1
            split at h
            · obtain ⟨ev2, e2, rfl⟩ := Option.map_eq_some_iff.1 h
              simp only [EvQ.step, hcons, List.getElem?_cons_zero] at e2
              cases e2
              exact ⟨.inl ⟨⟨_, rfl⟩, by simp⟩, fun _ => by simp [k3, room, hcc]; omega⟩
            · cases h
              rename_i hne
              refine ⟨.inl ⟨⟨.func, by rw [k1]; exact hcons⟩, fun _ => by rw [k2]; omega⟩, fun _ => ?_⟩
              simp [hcr1, k3, room, hcc, k1, hcons, k2]; omega

theorem room_run {beh burst} (hb : 0 < burst) : ∀ (as : List Act) (s s' : St), Low burst s → s.crashed = false → .fire ∉ as →
    run beh burst s as = some s' → (msgs s'.hist).length ≤ (msgs s.hist).length + room burst s := by
  intro as
  induction as with
  | nil => intro s s' _ _ _ h; cases h; omega
  | cons a as ih =>
    intro s s' hl hc hn h
    simp only [run] at h
    rcases e : step beh burst s a with _ | s1
    · rw [e] at h; cases h
    · rw [e] at h
      simp only [List.mem_cons, not_or] at hn
      obtain ⟨h1, h2⟩ := room_step hb hl e
      have h2 := h2 (fun h => hn.1 h.symm)
      by_cases hc1 : s1.crashed = true
      · cases as with
        | nil => cases h; simp [hc1] at h2; omega
        | cons a' as' => simp [Option.bind, run, step, hc1] at h
      · have hl1 : Low burst s1 := by rcases h1 with h1 | h1
                                      · exact h1
                                      · exact absurd h1 hc1
        have := ih s1 s' hl1 (by simpa using hc1) hn.2 h
        simp [hc1] at h2
        omega

theorem low_run {beh burst} (hb : 0 < burst) : ∀ (as : List Act) (s s' : St), Low burst s →
    run beh burst s as = some s' → Low burst s' ∨ s'.crashed = true := by
  intro as
  induction as with
  | nil => intro s s' hl h; cases h; exact .inl hl
  | cons a as ih =>
    intro s s' hl h
    simp only [run] at h
    rcases e : step beh burst s a with _ | s1
    · rw [e] at h; cases h
    · rw [e] at h
      rcases (room_step hb hl e).1 with hl1 | hc1
      · exact ih s1 s' hl1 h
      · cases as with
        | nil => cases h; exact .inr hc1
        | cons a' as' => simp [Option.bind, run, step, hc1] at h

end Disp
end Salticidae
