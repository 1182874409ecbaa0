import Verif.Lemmas.EventGlobal
/-!
What is destroyed when, and what is copied: the callbacks of events, and their members without a value.
-/
namespace Salticidae
namespace Event
open Spec.Event (seen Val Sp)

/-- What is put out satisfies P. -/
def Says (s s' : St) (P : Out → Prop) : Prop := ∃ o, s'.out = s.out ++ o ∧ ∀ x ∈ o, P x

theorem Says.refl {s s' : St} {P : Out → Prop} (h : s'.out = s.out) : Says s s' P := ⟨[], by simp [h], by simp⟩
theorem Says.trans {s s' s'' : St} {P : Out → Prop} (h : Says s s' P) (h' : Says s' s'' P) : Says s s'' P := by
  obtain ⟨o, e, k⟩ := h
  obtain ⟨o', e', k'⟩ := h'
  refine ⟨o ++ o', by rw [e', e, List.append_assoc], fun x hx => ?_⟩
  rcases List.mem_append.mp hx with h | h
  · exact k x h
  · exact k' x h
theorem Says.mono {s s' : St} {P Q : Out → Prop} (h : Says s s' P) (m : ∀ x, P x → Q x) : Says s s' Q := by
  obtain ⟨o, e, k⟩ := h
  exact ⟨o, e, fun x hx => m x (k x hx)⟩

/-- Callbacks are destroyed only if they are in C, values that are not determinate are copied only if J. -/
def Only (C : Nat → Prop) (J : Prop) : Out → Prop
  | .dropped c => C c
  | .indet => J
  | _ => True

theorem Only.mono {C C' : Nat → Prop} {J J' : Prop} (h : ∀ c, C c → C' c) (h' : J → J') : ∀ x, Only C J x → Only C' J' x := fun x k => by
  cases x <;> first | trivial | exact h _ k | exact h' k

theorem setData_eq {s s' : St} {h : Nat} {p : Ptr} (e : setData s h p = some s') : s'.out = s.out ∧ s'.ev = s.ev ∧ s'.tm = s.tm := by
  simp only [setData] at e; split at e
  · cases e
  · cases e; exact ⟨rfl, rfl, rfl⟩
theorem setData?_eq {s s' : St} {h : Option Nat} {p : Ptr} (e : setData? s h p = some s') : s'.out = s.out ∧ s'.ev = s.ev ∧ s'.tm = s.tm := by
  cases h with
  | none => cases e; exact ⟨rfl, rfl, rfl⟩
  | some h => exact setData_eq e
theorem uvStop_eq {s s' : St} {h : Nat} (e : uvStop s h = some s') : s'.out = s.out ∧ s'.ev = s.ev ∧ s'.tm = s.tm := by
  simp only [uvStop] at e; split at e
  · cases e; exact ⟨rfl, rfl, rfl⟩
  · cases e
theorem uvClose_eq {s s' : St} {h : Nat} (e : uvClose s h = some s') : s'.out = s.out ++ [.closed h] ∧ s'.ev = s.ev ∧ s'.tm = s.tm := by
  simp only [uvClose] at e; split at e
  · cases e; exact ⟨rfl, rfl, rfl⟩
  · cases e
theorem uvStart_eq {s s' : St} {h : Nat} {f : Then} {o : Bool} {ms : Nat} (e : uvStart s h f o ms = some s') : s'.out = s.out ∧ s'.ev = s.ev ∧ s'.tm = s.tm := by
  simp only [uvStart] at e; split at e
  · cases e; exact ⟨rfl, rfl, rfl⟩
  · cases e
theorem release_eq {s s' : St} {ec : Option Nat} (e : release s ec = some s') : Says s s' (Only (fun _ => False) False) ∧ s'.ev = s.ev ∧ s'.tm = s.tm := by
  cases ec with
  | none => cases e; exact ⟨.refl rfl, rfl, rfl⟩
  | some l =>
    simp only [release] at e
    split at e
    · simp only [freeLoop] at e
      split at e
      · cases e
      · cases e
        refine ⟨⟨_, rfl, fun x hx => ?_⟩, rfl, rfl⟩
        simp only [List.mem_append, List.mem_map, List.mem_singleton] at hx
        rcases hx with (⟨_, _, rfl⟩ | ⟨_, _, rfl⟩) | rfl <;> simp [Only]
    · cases e; exact ⟨.refl rfl, rfl, rfl⟩

theorem only_indet (C : Nat → Prop) (b : Bool) : ∀ x ∈ indetIf b, Only C (b = true) x := by cases b <;> simp [indetIf, Only]
theorem only_dropped {C : Nat → Prop} {J : Prop} {c : Option Nat} (h : ∀ x, c = some x → C x) : ∀ x ∈ dropped c, Only C J x := by
  cases c with
  | none => simp [dropped]
  | some c => simpa [dropped, Only] using h c rfl

theorem evMove_cb {s s' : St} {d q : Ptr} (e : evMove s d q = some s') :
    ∃ x, s.ev q = some x ∧ s'.ev = upd (upd s.ev d (some x)) q (some { x with ec := none, ev := none, cb := none }) ∧ s'.tm = s.tm ∧
      Says s s' (Only (fun _ => False) (x.cls = .fd ∧ x.fd = none)) := by
  simp only [evMove] at e
  split at e
  · cases e
  · rename_i x hx
    split at e
    · cases e
    · obtain ⟨h1, h2, h3⟩ := setData?_eq e
      exact ⟨x, hx, h2, h3, ⟨_, h1, fun y hy => Only.mono (fun _ h => h) (by simp) y (only_indet _ _ y hy)⟩⟩

theorem evSwap_cb {s s' : St} {p q : Ptr} (e : evSwap s p q = some s') :
    ∃ a b, s.ev p = some a ∧ s.ev q = some b ∧ s'.ev = upd (upd s.ev p (some b)) q (some a) ∧ s'.tm = s.tm ∧
      Says s s' (Only (fun _ => False) (a.cls = .fd ∧ (a.fd = none ∨ b.fd = none))) := by
  simp only [evSwap] at e
  split at e
  · rename_i a b ha hb
    simp only [Option.bind_eq_some_iff] at e
    obtain ⟨s1, e1, e2⟩ := e
    obtain ⟨h1, h2, h3⟩ := setData?_eq e1
    obtain ⟨g1, g2, g3⟩ := setData?_eq e2
    exact ⟨a, b, ha, hb, by rw [g2, h2]; rfl, by rw [g3, h3]; rfl, ⟨_, by rw [g1, h1]; rfl, fun y hy => Only.mono (fun _ h => h) (by simp) y (only_indet _ _ y hy)⟩⟩
  · cases e

theorem evClear_cb {s s' : St} {p : Ptr} (e : evClear s p = some s') :
    ∃ x, s.ev p = some x ∧ s'.ev = upd s.ev p (some { x with ev := none, cb := none }) ∧ s'.tm = s.tm ∧ Says s s' (Only (fun c => x.cb = some c) False) := by
  simp only [evClear] at e
  split at e
  · cases e
  · rename_i x hx
    simp only [Option.map_eq_some_iff] at e
    obtain ⟨s1, e1, rfl⟩ := e
    have h : Says s s1 (Only (fun c => x.cb = some c) False) ∧ s1.ev = s.ev ∧ s1.tm = s.tm := by
      cases hv : x.ev with
      | none => rw [hv] at e1; cases e1; exact ⟨.refl rfl, rfl, rfl⟩
      | some h =>
        rw [hv] at e1
        simp only [Option.bind_eq_some_iff] at e1
        obtain ⟨s2, e2, e3⟩ := e1
        obtain ⟨h1, h2, h3⟩ := uvStop_eq e2
        obtain ⟨g1, g2, g3⟩ := uvClose_eq e3
        exact ⟨⟨[.closed h], by rw [g1, h1], by simp [Only]⟩, by rw [g2, h2], by rw [g3, h3]⟩
    refine ⟨x, hx, by simp only [St.say, St.setEv, h.2.1], h.2.2, h.1.trans ⟨_, rfl, only_dropped (fun _ h => h)⟩⟩

theorem evDtor_cb {s s' : St} {p : Ptr} (e : evDtor s p = some s') :
    ∃ x, s.ev p = some x ∧ s'.ev = upd s.ev p none ∧ s'.tm = s.tm ∧ Says s s' (Only (fun c => x.cb = some c) False) := by
  simp only [evDtor, Option.bind_eq_some_iff] at e
  obtain ⟨s1, e1, e2⟩ := e
  obtain ⟨x, hx, h1, h2, h3⟩ := evClear_cb e1
  split at e2
  · cases e2
  · obtain ⟨g1, g2, g3⟩ := release_eq e2
    have g1' : Says s1 s' (Only (fun _ => False) False) := by obtain ⟨o, a, b⟩ := g1; exact ⟨o, a, b⟩
    refine ⟨x, hx, ?_, by rw [g3]; exact h2, h3.trans (g1'.mono (Only.mono (fun _ h => h.elim) (fun h => h)))⟩
    rw [g2]; dsimp only; rw [h1]; funext r; simp only [upd]; split <;> rfl

theorem evAssign_cb {t : Ptr} {s s' : St} {p q : Ptr} (htp : t ≠ p) (htq : t ≠ q) (e : evAssign t s p q = some s') (hne : p ≠ q) :
    ∃ x y, s.ev p = some x ∧ s.ev q = some y ∧ s'.ev = upd (upd (upd s.ev q (some { y with ec := none, ev := none, cb := none })) p (some y)) t none ∧ s'.tm = s.tm ∧
      Says s s' (Only (fun c => x.cb = some c) (y.cls = .fd ∧ (y.fd = none ∨ x.fd = none))) := by
  simp only [evAssign, if_neg hne, Option.bind_eq_some_iff] at e
  obtain ⟨s1, e1, s2, e2, e3⟩ := e
  obtain ⟨y, hy, a1, a2, a3⟩ := evMove_cb e1
  obtain ⟨y', x, hy', hx, b1, b2, b3⟩ := evSwap_cb e2
  obtain ⟨x', hx', c1, c2, c3⟩ := evDtor_cb e3
  rw [a1, upd_ne _ _ htq, upd_self] at hy'
  cases hy'
  rw [a1, upd_ne _ _ hne, upd_ne _ _ (Ne.symm htp)] at hx
  rw [b1, upd_ne _ _ htp, upd_self] at hx'
  cases hx'
  refine ⟨x, y, hx, hy, ?_, by rw [c2, b2, a2], ((a3.mono (Only.mono (fun _ h => h.elim) ?_)).trans (b3.mono (Only.mono (fun _ h => h.elim) ?_))).trans (c3.mono (Only.mono (fun _ h => h) (fun h => h.elim)))⟩
  · rw [c1, b1, a1]
    funext r
    simp only [upd]
    repeat' split
    all_goals first | rfl | (subst_vars; simp_all)
  · exact fun h => ⟨h.1, .inl h.2⟩
  · exact fun h => h

/-- The events in TimedFdEvents have no callbacks of their own. -/
def Zb (s : St) : Prop := ∀ p e, p.part ≠ .self → s.ev p = some e → e.cb = none

theorem Zb.upd {f : Ptr → Option Ev} (z : ∀ p e, p.part ≠ .self → f p = some e → e.cb = none) (p : Ptr) (x : Option Ev) (h : p.part ≠ .self → ∀ e, x = some e → e.cb = none) :
    ∀ q e, q.part ≠ .self → upd f p x q = some e → e.cb = none := fun q e hq he => by
  rw [upd_apply] at he
  split at he
  · subst_vars; exact h hq e rfl
  · exact z q e hq he

theorem Says.any {s s' : St} {C : Nat → Prop} {J : Prop} (h : Says s s' (Only C J)) : Says s s' (Only C True) := h.mono (Only.mono (fun _ h => h) (fun _ => trivial))
theorem Says.no {s s' : St} {J : Prop} (h : Says s s' (Only (fun _ => False) J)) (C : Nat → Prop) : Says s s' (Only C J) := h.mono (Only.mono (fun _ h => h.elim) (fun h => h))
theorem Says.cb {s s' : St} {x : Ev} {J : Prop} (h : Says s s' (Only (fun c => x.cb = some c) J)) (hx : x.cb = none) : Says s s' (Only (fun _ => False) J) :=
  h.mono (Only.mono (fun _ h => by rw [hx] at h; cases h) (fun h => h))

/-- std::swap of events without callbacks. -/
theorem stdSwap_cb {t t' : Ptr} {s s' : St} {p q : Ptr} (htp : t ≠ p) (htq : t ≠ q) (htp' : t' ≠ p) (htq' : t' ≠ q) (htt : t' ≠ t)
    (hp : ∀ x, s.ev p = some x → x.cb = none) (hq : ∀ x, s.ev q = some x → x.cb = none) (e : stdSwap t t' s p q = some s') :
    s'.tm = s.tm ∧ Says s s' (Only (fun _ => False) True) ∧ (∀ r, r ≠ t → r ≠ t' → r ≠ p → r ≠ q → s'.ev r = s.ev r) ∧ s'.ev t = none ∧ (p ≠ q → s'.ev t' = none) ∧ s'.ev p = s.ev q ∧ s'.ev q = s.ev p := by
  simp only [stdSwap, Option.bind_eq_some_iff] at e
  obtain ⟨s1, e1, s2, e2, s3, e3, e4⟩ := e
  obtain ⟨x, hx, a1, a2, a3⟩ := evMove_cb e1
  have cx := hp x hx
  by_cases hne : p = q
  · subst hne
    simp only [evAssign, if_pos] at e2
    cases e2
    obtain ⟨x1, y1, hx1, hy1, c1, c2, c3⟩ := evAssign_cb htp' htt e3 (Ne.symm htp)
    obtain ⟨x2, hx2, d1, d2, d3⟩ := evDtor_cb e4
    rw [a1, upd_self] at hx1; cases hx1
    rw [a1, upd_ne _ _ htp, upd_self] at hy1; cases hy1
    rw [c1, upd_ne _ _ (Ne.symm htt), upd_ne _ _ htp, upd_self] at hx2; cases hx2
    refine ⟨by rw [d2, c2, a2], (a3.any.trans (c3.cb rfl).any).trans (d3.cb rfl).any, fun r h1 h2 h3 _ => ?_, by rw [d1, upd_self], fun h => absurd rfl h, ?_, ?_⟩
    · rw [d1, upd_ne _ _ h1, c1, upd_ne _ _ h2, upd_ne _ _ h3, upd_ne _ _ h1, a1, upd_ne _ _ h3, upd_ne _ _ h1]
    all_goals rw [d1, upd_ne _ _ (Ne.symm htp), c1, upd_ne _ _ (Ne.symm htp'), upd_self, hx]
  · obtain ⟨x1, y1, hx1, hy1, b1, b2, b3⟩ := evAssign_cb htp' htq' e2 hne
    obtain ⟨x2, y2, hx2, hy2, c1, c2, c3⟩ := evAssign_cb htq' htt e3 (Ne.symm htq)
    obtain ⟨x3, hx3, d1, d2, d3⟩ := evDtor_cb e4
    rw [a1, upd_self] at hx1; cases hx1
    rw [a1, upd_ne _ _ (Ne.symm hne), upd_ne _ _ (Ne.symm htq)] at hy1
    rw [b1, upd_ne _ _ (Ne.symm htq'), upd_ne _ _ (Ne.symm hne), upd_self] at hx2; cases hx2
    rw [b1, upd_ne _ _ (Ne.symm htt), upd_ne _ _ htp, upd_ne _ _ htq, a1, upd_ne _ _ htp, upd_self] at hy2; cases hy2
    rw [c1, upd_ne _ _ (Ne.symm htt), upd_ne _ _ htq, upd_self] at hx3; cases hx3
    refine ⟨by rw [d2, c2, b2, a2], ((a3.any.trans (b3.cb rfl).any).trans (c3.cb rfl).any).trans (d3.cb rfl).any, fun r h1 h2 h3 h4 => ?_, by rw [d1, upd_self], fun _ => ?_, ?_, ?_⟩
    · rw [d1, upd_ne _ _ h1, c1, upd_ne _ _ h2, upd_ne _ _ h4, upd_ne _ _ h1, b1, upd_ne _ _ h2, upd_ne _ _ h3, upd_ne _ _ h4, a1, upd_ne _ _ h3, upd_ne _ _ h1]
    · rw [d1, upd_ne _ _ htt, c1, upd_self]
    · rw [d1, upd_ne _ _ (Ne.symm htp), c1, upd_ne _ _ (Ne.symm htp'), upd_ne _ _ hne, upd_ne _ _ (Ne.symm htp), b1, upd_ne _ _ (Ne.symm htp'), upd_self, hy1]
    · rw [d1, upd_ne _ _ (Ne.symm htq), c1, upd_ne _ _ (Ne.symm htq'), upd_self, hx]

theorem tData_eq {s s' : St} {p : Loc} (e : tData s p = some s') : s'.out = s.out ∧ s'.ev = s.ev ∧ s'.tm = s.tm := by
  simp only [tData] at e
  split at e
  · split at e
    · simp only [Option.bind_eq_some_iff] at e
      obtain ⟨s1, e1, e2⟩ := e
      obtain ⟨h1, h2, h3⟩ := setData_eq e1
      obtain ⟨g1, g2, g3⟩ := setData_eq e2
      exact ⟨by rw [g1, h1], by rw [g2, h2], by rw [g3, h3]⟩
    · cases e
    · cases e; exact ⟨rfl, rfl, rfl⟩
  · cases e

theorem tMove_cb {s s' : St} {d q : Loc} (z : Zb s) (e : tMove s d q = some s') : Zb s' ∧ Says s s' (Only (fun _ => False) True) ∧
    ∃ x, s.tm q = some x ∧ s'.tm = upd (upd s.tm d (some x)) q (some { x with cb := none }) := by
  simp only [tMove, Option.bind_eq_some_iff] at e
  obtain ⟨s1, e1, s2, e2, e3⟩ := e
  obtain ⟨x, hx, a1, a2, a3⟩ := evMove_cb e1
  obtain ⟨y, hy, b1, b2, b3⟩ := evMove_cb e2
  have z1 : Zb s1 := by rw [Zb, a1]; exact Zb.upd (Zb.upd z _ _ (fun h e k => by cases k; exact z _ _ (by simp) hx)) _ _ (fun _ e k => by cases k; rfl)
  have z2 : Zb s2 := by rw [Zb, b1]; exact Zb.upd (Zb.upd z1 _ _ (fun h e k => by cases k; exact z1 _ _ (by simp) hy)) _ _ (fun _ e k => by cases k; rfl)
  split at e3
  · cases e3
  · rename_i m hm
    obtain ⟨h1, h2, h3⟩ := tData_eq e3
    refine ⟨by rw [Zb, h2]; exact z2, (a3.any.trans b3.any).trans ⟨_, h1, fun y hy => Only.mono (fun _ h => h) (fun _ => trivial) y (only_indet _ _ y hy)⟩, m, by rw [← a2, ← b2, hm], ?_⟩
    rw [h3]; dsimp only [St.say]; rw [b2, a2]

theorem tSwap_cb {s s' : St} {p q : Loc} (z : Zb s) (h1 : p ≠ .tmp 1) (h2 : p ≠ .tmp 2) (h3 : q ≠ .tmp 1) (h4 : q ≠ .tmp 2) (e : tSwap s p q = some s') : Zb s' ∧ Says s s' (Only (fun _ => False) True) ∧
    ∃ x y, s.tm p = some x ∧ s.tm q = some y ∧ s'.tm = upd (upd s.tm p (some y)) q (some x) := by
  simp only [tSwap, Option.bind_eq_some_iff] at e
  obtain ⟨s1, e1, s2, e2, e3⟩ := e
  obtain ⟨a1, a2, a3, a4, a5, a6, a7⟩ := stdSwap_cb (by simp [Ne.symm h1]) (by simp [Ne.symm h3]) (by simp [Ne.symm h2]) (by simp [Ne.symm h4]) (by simp) (fun x hx => z _ _ (by simp) hx) (fun x hx => z _ _ (by simp) hx) e1
  have z1 : Zb s1 := fun r x hr hx => by
    by_cases r1 : r = ⟨p, .fd⟩
    · rw [r1, a6] at hx; exact z _ _ (by simp) hx
    by_cases r2 : r = ⟨q, .fd⟩
    · rw [r2, a7] at hx; exact z _ _ (by simp) hx
    rw [a3 r (fun h => by rw [h] at hr; simp at hr) (fun h => by rw [h] at hr; simp at hr) r1 r2] at hx
    exact z _ _ hr hx
  obtain ⟨b1, b2, b3, b4, b5, b6, b7⟩ := stdSwap_cb (by simp [Ne.symm h1]) (by simp [Ne.symm h3]) (by simp [Ne.symm h2]) (by simp [Ne.symm h4]) (by simp) (fun x hx => z1 _ _ (by simp) hx) (fun x hx => z1 _ _ (by simp) hx) e2
  have z2 : Zb s2 := fun r x hr hx => by
    by_cases r1 : r = ⟨p, .timer⟩
    · rw [r1, b6] at hx; exact z1 _ _ (by simp) hx
    by_cases r2 : r = ⟨q, .timer⟩
    · rw [r2, b7] at hx; exact z1 _ _ (by simp) hx
    rw [b3 r (fun h => by rw [h] at hr; simp at hr) (fun h => by rw [h] at hr; simp at hr) r1 r2] at hx
    exact z1 _ _ hr hx
  split at e3
  · rename_i x y hx hy
    simp only [Option.bind_eq_some_iff] at e3
    obtain ⟨s3, e4, e5⟩ := e3
    obtain ⟨g1, g2, g3⟩ := tData_eq e4
    obtain ⟨k1, k2, k3⟩ := tData_eq e5
    refine ⟨by rw [Zb, k2, g2]; exact z2, (a2.trans b2).trans ⟨_, by rw [k1, g1]; rfl, fun y hy => Only.mono (fun _ h => h) (fun _ => trivial) y (only_indet _ _ y hy)⟩, x, y, by rw [← a1, ← b1, hx], by rw [← a1, ← b1, hy], ?_⟩
    rw [k3, g3]; dsimp only [St.say]; rw [b1, a1]
  · cases e3

theorem tClear_cb {s s' : St} {p : Loc} (z : Zb s) (e : tClear s p = some s') : Zb s' ∧
    ∃ x, s.tm p = some x ∧ s'.tm = upd s.tm p (some { x with cb := none }) ∧ Says s s' (Only (fun c => x.cb = some c) True) := by
  simp only [tClear, Option.bind_eq_some_iff] at e
  obtain ⟨s1, e1, s2, e2, e3⟩ := e
  obtain ⟨x, hx, a1, a2, a3⟩ := evClear_cb e1
  have z1 : Zb s1 := by rw [Zb, a1]; exact Zb.upd z _ _ (fun _ e k => by cases k; rfl)
  obtain ⟨y, hy, b1, b2, b3⟩ := evClear_cb e2
  have z2 : Zb s2 := by rw [Zb, b1]; exact Zb.upd z1 _ _ (fun _ e k => by cases k; rfl)
  split at e3
  · cases e3
  · rename_i m hm
    cases e3
    refine ⟨z2, m, by rw [← a2, ← b2, hm], by dsimp only [St.say]; rw [b2, a2], ?_⟩
    exact (((a3.cb (z _ _ (by simp) hx)).no _).any.trans ((b3.cb (z1 _ _ (by simp) hy)).no _).any).trans ⟨_, rfl, only_dropped (fun _ h => h)⟩

theorem tDtor_cb {s s' : St} {p : Loc} (z : Zb s) (e : tDtor s p = some s') : Zb s' ∧
    ∃ x, s.tm p = some x ∧ s'.tm = upd s.tm p none ∧ Says s s' (Only (fun c => x.cb = some c) True) := by
  simp only [tDtor, Option.bind_eq_some_iff] at e
  obtain ⟨s1, e1, s2, e2, e3⟩ := e
  obtain ⟨z1, x, hx, a1, a2⟩ := tClear_cb z e1
  obtain ⟨y, hy, b1, b2, b3⟩ := evDtor_cb e2
  have z2 : Zb s2 := by rw [Zb, b1]; exact Zb.upd z1 _ _ (fun _ e k => by cases k)
  obtain ⟨w, hw, c1, c2, c3⟩ := evDtor_cb e3
  refine ⟨by rw [Zb, c1]; exact Zb.upd z2 _ _ (fun _ e k => by cases k), x, hx, ?_, ?_⟩
  · rw [c2, b2]; dsimp only; rw [a1]; funext r; simp only [upd]; split <;> rfl
  · have b3' : Says s1 s2 (Only (fun c => y.cb = some c) False) := by obtain ⟨o, a, b⟩ := b3; exact ⟨o, a, b⟩
    exact (a2.trans ((b3'.cb (z1 _ _ (by simp) hy)).no _).any).trans ((c3.cb (z2 _ _ (by simp) hw)).no _).any

theorem tAssign_cb {s s' : St} {p q : Loc} (z : Zb s) (h0 : p ≠ .tmp 0) (h1 : p ≠ .tmp 1) (h2 : p ≠ .tmp 2) (hq : q ≠ .tmp 0) (hne : p ≠ q) (e : tAssign s p q = some s') : Zb s' ∧
    ∃ x, s.tm p = some x ∧ Says s s' (Only (fun c => x.cb = some c) True) := by
  simp only [tAssign, if_neg hne, Option.bind_eq_some_iff] at e
  obtain ⟨s1, e1, s2, e2, e3⟩ := e
  obtain ⟨z1, a1, x, hx, a2⟩ := tMove_cb z e1
  obtain ⟨z2, b1, x', y, hx', hy, b2⟩ := tSwap_cb z1 (by simp) (by simp) h1 h2 e2
  obtain ⟨z3, w, hw, _, c1⟩ := tDtor_cb z2 e3
  rw [a2, upd_ne _ _ hne, upd_ne _ _ h0] at hy
  rw [b2, upd_ne _ _ (Ne.symm h0), upd_self] at hw
  cases hw
  exact ⟨z3, y, hy, ((a1.no _).trans (b1.no _)).trans c1⟩

/-- The callback in variable o of type k. -/
def callback (s : St) (o : Nat) : Kind → Option Nat
  | .one _ => (s.ev ⟨.obj o, .self⟩).bind (·.cb)
  | .timed => (s.tm (.obj o)).bind (·.cb)

/-- The operation overwrites or destroys what is in variable o of type k. -/
def ends : Op → Nat → Kind → Bool
  | .assign o p k, o', k' => o == o' && o != p && k == k'
  | .clear o k, o', k' => o == o' && k == k'
  | .destroy o k, o', k' => o == o' && k == k'
  | .setCb o k _, o', k' => o == o' && k == k'
  | _, _, _ => false

theorem evNew_cb {s s' : St} {p : Ptr} {c : Cls} {l : Nat} {cb : Option Nat} {fd : Nat} (e : evNew s p c l cb fd = some s') :
    s'.out = s.out ∧ s'.tm = s.tm ∧ s'.ev = upd s.ev p (some ⟨c, some l, if c = .fd then some fd else none, some s.nextH, cb⟩) := by
  simp only [evNew] at e
  split at e
  · cases e
  · obtain ⟨h1, h2, h3⟩ := setData_eq e
    exact ⟨h1, h3, h2⟩

theorem evAdd_cb {s s' : St} {p : Ptr} {once : Bool} {ms : Nat} (e : evAdd s p once ms = some s') (C : Nat → Prop) (J : Prop) : Says s s' (Only C J) ∧ s'.ev = s.ev ∧ s'.tm = s.tm := by
  simp only [evAdd] at e
  split at e
  · split at e
    · split at e
      · simp only [Option.map_eq_some_iff] at e
        obtain ⟨s1, e1, rfl⟩ := e
        obtain ⟨h1, h2, h3⟩ := uvStart_eq e1
        exact ⟨⟨_, by simp only [St.say]; rw [h1], by simp [Only]⟩, h2, h3⟩
      · obtain ⟨h1, h2, h3⟩ := uvStart_eq e; exact ⟨.refl h1, h2, h3⟩
      · obtain ⟨h1, h2, h3⟩ := uvStart_eq e; exact ⟨.refl h1, h2, h3⟩
    · cases e
  · cases e

theorem evDel_cb {s s' : St} {p : Ptr} (e : evDel s p = some s') : s'.out = s.out ∧ s'.ev = s.ev ∧ s'.tm = s.tm := by
  simp only [evDel] at e
  split at e
  · split at e
    · exact uvStop_eq e
    · cases e; exact ⟨rfl, rfl, rfl⟩
  · cases e

theorem tAdd_cb {s s' : St} {p : Loc} {ms : Nat} (e : tAdd s p ms = some s') (C : Nat → Prop) (J : Prop) : Says s s' (Only C J) ∧ s'.ev = s.ev := by
  simp only [tAdd] at e
  split at e
  · split at e
    · simp only [Option.bind_eq_some_iff] at e
      obtain ⟨s1, e1, e2⟩ := e
      obtain ⟨h1, h2, _⟩ := uvStart_eq e1
      obtain ⟨g1, g2, _⟩ := uvStart_eq e2
      exact ⟨⟨_, by rw [g1]; simp only [St.say]; rw [h1], by simp [Only]⟩, by rw [g2]; exact h2⟩
    · cases e
  · cases e

theorem fire_cb {s s' : St} {h : Nat} (e : fire s h = some s') (C : Nat → Prop) (J : Prop) : Says s s' (Only C J) ∧ s'.ev = s.ev := by
  simp only [fire] at e
  split at e
  · split at e
    · split at e
      · simp only [thenPlain] at e
        split at e
        · split at e
          · cases e
          · cases e; exact ⟨⟨_, rfl, by simp [Only]⟩, rfl⟩
        · cases e
      · simp only [thenTimedFd] at e
        split at e
        · split at e
          · simp only [Option.bind_eq_some_iff, Option.map_eq_some_iff] at e
            obtain ⟨s1, e1, s2, e2, rfl⟩ := e
            obtain ⟨h1, h2, _⟩ := uvStop_eq e1
            obtain ⟨g1, g2, _⟩ := uvStart_eq e2
            exact ⟨⟨_, by simp only [St.say]; rw [g1, h1]; rfl, by simp [Only]⟩, by simp only [St.say]; rw [g2, h2]; rfl⟩
          · cases e
        · cases e
      · simp only [thenTimedTimer] at e
        split at e
        · split at e
          · simp only [Option.map_eq_some_iff] at e
            obtain ⟨s1, e1, rfl⟩ := e
            obtain ⟨h1, h2, _⟩ := uvStop_eq e1
            exact ⟨⟨_, by simp only [St.say]; rw [h1]; rfl, by simp [Only]⟩, by simp only [St.say]; rw [h2]; rfl⟩
          · cases e; exact ⟨⟨_, rfl, by simp [Only]⟩, rfl⟩
          · cases e
        · cases e
    · cases e
  · cases e; exact ⟨.refl rfl, rfl⟩

theorem closeCb_cb (s : St) (h : Nat) (C : Nat → Prop) (J : Prop) : Says s (closeCb s h) (Only C J) ∧ (closeCb s h).ev = s.ev := by
  simp only [closeCb]
  split
  · exact ⟨⟨_, rfl, by simp [Only]⟩, rfl⟩
  · exact ⟨.refl rfl, rfl⟩

theorem newHd_cb (s : St) (l : Nat) (b : Bool) (C : Nat → Prop) (J : Prop) : Says s (newHd s l b) (Only C J) ∧ (newHd s l b).ev = s.ev := by
  cases b
  · exact ⟨⟨_, rfl, by simp [Only]⟩, rfl⟩
  · exact ⟨.refl rfl, rfl⟩

/-- A callback is destroyed only by an operation on the variable that has it. -/
theorem step_cb {s s' : St} (z : Zb s) (op : Op) (e : step s op = some s') :
    Zb s' ∧ Says s s' (Only (fun c => ∃ o k, ends op o k = true ∧ callback s o k = some c) True) := by
  match op, e with
  | .ctx, e => cases e; exact ⟨z, .refl rfl⟩
  | .copyCtx l, e => cases e; exact ⟨z, .refl rfl⟩
  | .dropCtx l, e =>
    simp only [step] at e
    obtain ⟨h1, h2, h3⟩ := release_eq e
    refine ⟨by rw [Zb, h2]; exact z, ?_⟩
    obtain ⟨o, a, b⟩ := h1
    exact ⟨o, a, fun x hx => Only.mono (fun _ h => h.elim) (fun h => h.elim) x (b x hx)⟩
  | .empty o (.one c), e => cases e; exact ⟨Zb.upd z _ _ (fun h => absurd rfl h), .refl rfl⟩
  | .empty o .timed, e => cases e; exact ⟨Zb.upd (Zb.upd z _ _ (fun _ e k => by cases k; rfl)) _ _ (fun _ e k => by cases k; rfl), .refl rfl⟩
  | .new o (.one c) l cb fd true, e =>
    obtain ⟨h1, h2, h3⟩ := evNew_cb e
    exact ⟨by rw [Zb, h3]; exact Zb.upd z _ _ (fun h => absurd rfl h), .refl h1⟩
  | .new o .timed l cb fd true, e =>
    simp only [step, tNew, Option.bind_eq_some_iff] at e
    obtain ⟨s1, e1, s2, e2, e3⟩ := e
    obtain ⟨h1, h2, h3⟩ := evNew_cb e1
    obtain ⟨g1, g2, g3⟩ := evNew_cb e2
    obtain ⟨k1, k2, k3⟩ := tData_eq e3
    refine ⟨?_, .refl (by rw [k1]; dsimp only; rw [g1, h1])⟩
    rw [Zb, k2]; dsimp only; rw [g3, h3]
    exact Zb.upd (Zb.upd z _ _ (fun _ e k => by cases k; rfl)) _ _ (fun _ e k => by cases k; rfl)
  | .new _ (.one _) l _ _ false, e => cases e; exact ⟨by rw [Zb, (newHd_cb s l false (fun _ => False) True).2]; exact z, (newHd_cb s l false _ _).1⟩
  | .new _ .timed l _ _ false, e => cases e; exact ⟨by rw [Zb, (newHd_cb s l false (fun _ => False) True).2]; exact z, (newHd_cb s l false _ _).1⟩
  | .move o p (.one _), e =>
    obtain ⟨x, hx, h1, h2, h3⟩ := evMove_cb e
    exact ⟨by rw [Zb, h1]; exact Zb.upd (Zb.upd z _ _ (fun h => absurd rfl h)) _ _ (fun h => absurd rfl h), (h3.no _).any⟩
  | .move o p .timed, e => exact ⟨(tMove_cb z e).1, (tMove_cb z e).2.1.no _⟩
  | .assign o p (.one c), e =>
    simp only [step] at e
    by_cases hne : o = p
    · rw [evAssign, if_pos (by rw [hne])] at e; cases e; exact ⟨z, .refl rfl⟩
    · obtain ⟨x, y, hx, hy, h1, h2, h3⟩ := evAssign_cb (by simp) (by simp) e (by simp [hne])
      refine ⟨by rw [Zb, h1]; exact Zb.upd (Zb.upd (Zb.upd z _ _ (fun h => absurd rfl h)) _ _ (fun h => absurd rfl h)) _ _ (fun h => absurd rfl h), h3.mono (Only.mono (fun w hw => ?_) (fun _ => trivial))⟩
      exact ⟨o, .one c, by simp [ends, hne], by simp [callback, hx, hw]⟩
  | .assign o p .timed, e =>
    simp only [step] at e
    by_cases hne : o = p
    · rw [tAssign, if_pos (by rw [hne])] at e; cases e; exact ⟨z, .refl rfl⟩
    · obtain ⟨h1, x, hx, h2⟩ := tAssign_cb z (by simp) (by simp) (by simp) (by simp) (by simp [hne]) e
      refine ⟨h1, h2.mono (Only.mono (fun w hw => ?_) (fun h => h))⟩
      exact ⟨o, .timed, by simp [ends, hne], by simp [callback, hx, hw]⟩
  | .swap o p (.one _), e =>
    obtain ⟨x, y, hx, hy, h1, h2, h3⟩ := evSwap_cb e
    exact ⟨by rw [Zb, h1]; exact Zb.upd (Zb.upd z _ _ (fun h => absurd rfl h)) _ _ (fun h => absurd rfl h), (h3.no _).any⟩
  | .swap o p .timed, e =>
    have h := tSwap_cb z (by simp) (by simp) (by simp) (by simp) e
    exact ⟨h.1, h.2.1.no _⟩
  | .clear o (.one c), e =>
    obtain ⟨x, hx, h1, h2, h3⟩ := evClear_cb e
    refine ⟨by rw [Zb, h1]; exact Zb.upd z _ _ (fun h => absurd rfl h), h3.any.mono (Only.mono (fun w hw => ?_) (fun h => h))⟩
    exact ⟨o, .one c, by simp [ends], by simp [callback, hx, hw]⟩
  | .clear o .timed, e =>
    obtain ⟨h1, x, hx, h2, h3⟩ := tClear_cb z e
    refine ⟨h1, h3.any.mono (Only.mono (fun w hw => ?_) (fun h => h))⟩
    exact ⟨o, .timed, by simp [ends], by simp [callback, hx, hw]⟩
  | .destroy o (.one c), e =>
    obtain ⟨x, hx, h1, h2, h3⟩ := evDtor_cb e
    refine ⟨by rw [Zb, h1]; exact Zb.upd z _ _ (fun h => absurd rfl h), h3.any.mono (Only.mono (fun w hw => ?_) (fun h => h))⟩
    exact ⟨o, .one c, by simp [ends], by simp [callback, hx, hw]⟩
  | .destroy o .timed, e =>
    obtain ⟨h1, x, hx, h2, h3⟩ := tDtor_cb z e
    refine ⟨h1, h3.any.mono (Only.mono (fun w hw => ?_) (fun h => h))⟩
    exact ⟨o, .timed, by simp [ends], by simp [callback, hx, hw]⟩
  | .setCb o (.one c) b, e =>
    simp only [step, evSetCb] at e
    split at e
    · cases e
    · rename_i x hx
      cases e
      refine ⟨Zb.upd z _ _ (fun h => absurd rfl h), ⟨_, rfl, only_dropped (fun w hw => ?_)⟩⟩
      exact ⟨o, .one c, by simp [ends], by simp [callback, hx, hw]⟩
  | .setCb o .timed b, e =>
    simp only [step, tSetCb] at e
    split at e
    · cases e
    · rename_i x hx
      cases e
      refine ⟨z, ⟨_, rfl, only_dropped (fun w hw => ?_)⟩⟩
      exact ⟨o, .timed, by simp [ends], by simp [callback, hx, hw]⟩
  | .add o (.one c) once ms, e =>
    exact ⟨by rw [Zb, (evAdd_cb e (fun _ => False) True).2.1]; exact z, (evAdd_cb e _ _).1⟩
  | .add o .timed _ ms, e => exact ⟨by rw [Zb, (tAdd_cb e (fun _ => False) True).2]; exact z, (tAdd_cb e _ _).1⟩
  | .del o (.one c), e =>
    obtain ⟨h1, h2, h3⟩ := evDel_cb e
    exact ⟨by rw [Zb, h2]; exact z, .refl h1⟩
  | .del o .timed, e =>
    simp only [step, tDel, Option.bind_eq_some_iff] at e
    obtain ⟨s1, e1, e2⟩ := e
    obtain ⟨h1, h2, h3⟩ := evDel_cb e1
    obtain ⟨g1, g2, g3⟩ := evDel_cb e2
    exact ⟨by rw [Zb, g2, h2]; exact z, .refl (by rw [g1, h1])⟩
  | .fire h, e => exact ⟨by rw [Zb, (fire_cb e (fun _ => False) True).2]; exact z, (fire_cb e _ _).1⟩
  | .done, e => cases e; exact ⟨z, .refl rfl⟩
  | .closeCb h, e => cases e; exact ⟨by rw [Zb, (closeCb_cb s h (fun _ => False) True).2]; exact z, (closeCb_cb s h _ _).1⟩

theorem Zb_init : Zb init := fun _ _ _ h => by cases h

theorem run_Zb {s s' : St} (z : Zb s) (ops : List Op) (e : run s ops = some s') : Zb s' := by
  induction ops generalizing s with
  | nil => cases e; exact z
  | cons x ops ih =>
    simp only [run, Option.bind_eq_some_iff] at e
    obtain ⟨s1, e1, e2⟩ := e
    exact ih (step_cb z x e1).1 e2

/-! # Members without a value -/

/-- FdEvents have a descriptor. -/
def Fd (s : St) : Prop := ∀ p e, s.ev p = some e → e.cls = .fd → e.fd ≠ none

theorem Fd.upd {f : Ptr → Option Ev} (z : ∀ p e, f p = some e → e.cls = .fd → e.fd ≠ none) (p : Ptr) (x : Option Ev) (h : ∀ e, x = some e → e.cls = .fd → e.fd ≠ none) :
    ∀ q e, upd f p x q = some e → e.cls = .fd → e.fd ≠ none := fun q e he => by
  rw [upd_apply] at he
  split at he
  · exact h e he
  · exact z q e he

/-- Neither TimedFdEvents nor FdEvents without a descriptor are used; what is swapped has the same type. -/
def plainOp : Op → Bool
  | .empty _ k => k != .timed && k != .one .fd
  | .new _ k _ _ _ _ | .move _ _ k | .assign _ _ k | .swap _ _ k | .clear _ k | .destroy _ k | .setCb _ k _ | .add _ k _ _ | .del _ k => k != .timed
  | _ => true

theorem step_indet {s s' : St} (z : Fd s) (hk : ∀ o p c, ∀ x y, s.ev ⟨.obj o, .self⟩ = some x → s.ev ⟨.obj p, .self⟩ = some y → op = .swap o p (.one c) ∨ op = .assign o p (.one c) → x.cls = y.cls)
    (hp : plainOp op = true) (e : step s op = some s') : Fd s' ∧ Says s s' (Only (fun _ => True) False) := by
  match op, hp, e with
  | .ctx, _, e => cases e; exact ⟨z, .refl rfl⟩
  | .copyCtx l, _, e => cases e; exact ⟨z, .refl rfl⟩
  | .dropCtx l, _, e =>
    simp only [step] at e
    obtain ⟨h1, h2, h3⟩ := release_eq e
    refine ⟨by rw [Fd, h2]; exact z, ?_⟩
    obtain ⟨o, a, b⟩ := h1
    exact ⟨o, a, fun x hx => Only.mono (fun _ h => h.elim) (fun h => h.elim) x (b x hx)⟩
  | .empty o (.one c), hp, e => cases e; exact ⟨Fd.upd z _ _ (fun e k => by cases k; intro h; simp [plainOp] at hp; exact absurd h hp), .refl rfl⟩
  | .new o (.one c) l cb fd true, _, e =>
    obtain ⟨h1, h2, h3⟩ := evNew_cb e
    exact ⟨by rw [Fd, h3]; exact Fd.upd z _ _ (fun e k => by cases k; intro h; simp_all), .refl h1⟩
  | .new _ (.one _) l _ _ false, _, e => cases e; exact ⟨by rw [Fd, (newHd_cb s l false (fun _ => False) True).2]; exact z, (newHd_cb s l false _ _).1⟩
  | .move o p (.one _), _, e =>
    obtain ⟨x, hx, h1, h2, h3⟩ := evMove_cb e
    have zx := z _ _ hx
    exact ⟨by rw [Fd, h1]; exact Fd.upd (Fd.upd z _ _ (fun e k => by cases k; exact zx)) _ _ (fun e k => by cases k; exact zx), h3.mono (Only.mono (fun _ h => h.elim) (fun h => zx h.1 h.2))⟩
  | .assign o p (.one c), _, e =>
    simp only [step] at e
    by_cases hne : o = p
    · rw [evAssign, if_pos (by rw [hne])] at e; cases e; exact ⟨z, .refl rfl⟩
    · obtain ⟨x, y, hx, hy, h1, h2, h3⟩ := evAssign_cb (by simp) (by simp) e (by simp [hne])
      have zx := z _ _ hx
      have zy := z _ _ hy
      have hc := hk o p c x y hx hy (.inr rfl)
      exact ⟨by rw [Fd, h1]; exact Fd.upd (Fd.upd (Fd.upd z _ _ (fun e k => by cases k; exact zy)) _ _ (fun e k => by cases k; exact zy)) _ _ (fun e k => by cases k),
        h3.mono (Only.mono (fun _ _ => trivial) (fun h => h.2.elim (zy h.1) (zx (hc.trans h.1))))⟩
  | .swap o p (.one c), _, e =>
    obtain ⟨x, y, hx, hy, h1, h2, h3⟩ := evSwap_cb e
    have zx := z _ _ hx
    have zy := z _ _ hy
    have hc := hk o p c x y hx hy (.inl rfl)
    exact ⟨by rw [Fd, h1]; exact Fd.upd (Fd.upd z _ _ (fun e k => by cases k; exact zy)) _ _ (fun e k => by cases k; exact zx),
      h3.mono (Only.mono (fun _ _ => trivial) (fun h => h.2.elim (zx h.1) (zy (hc.symm.trans h.1))))⟩
  | .clear o (.one c), _, e =>
    obtain ⟨x, hx, h1, h2, h3⟩ := evClear_cb e
    have zx := z _ _ hx
    exact ⟨by rw [Fd, h1]; exact Fd.upd z _ _ (fun e k => by cases k; exact zx), h3.mono (Only.mono (fun _ _ => trivial) (fun h => h))⟩
  | .destroy o (.one c), _, e =>
    obtain ⟨x, hx, h1, h2, h3⟩ := evDtor_cb e
    exact ⟨by rw [Fd, h1]; exact Fd.upd z _ _ (fun e k => by cases k), h3.mono (Only.mono (fun _ _ => trivial) (fun h => h))⟩
  | .setCb o (.one c) b, _, e =>
    simp only [step, evSetCb] at e
    split at e
    · cases e
    · rename_i x hx
      have zx := z _ _ hx
      cases e
      exact ⟨Fd.upd z _ _ (fun e k => by cases k; exact zx), ⟨_, rfl, only_dropped (fun w hw => trivial)⟩⟩
  | .add o (.one c) once ms, _, e => exact ⟨by rw [Fd, (evAdd_cb e (fun _ => False) True).2.1]; exact z, (evAdd_cb e _ _).1⟩
  | .del o (.one c), _, e =>
    obtain ⟨h1, h2, h3⟩ := evDel_cb e
    exact ⟨by rw [Fd, h2]; exact z, .refl h1⟩
  | .fire h, _, e => exact ⟨by rw [Fd, (fire_cb e (fun _ => False) True).2]; exact z, (fire_cb e _ _).1⟩
  | .done, _, e => cases e; exact ⟨z, .refl rfl⟩
  | .closeCb h, _, e => cases e; exact ⟨by rw [Fd, (closeCb_cb s h (fun _ => False) True).2]; exact z, (closeCb_cb s h _ _).1⟩

end Event
end Salticidae
