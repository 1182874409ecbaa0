import Verif.Spec.SendApi
namespace Salticidae
open SendApi Spec.SendApi

theorem lookup_entry (l : List (Nat × Nat)) (k : Nat) : lookup l k = entry l k := by
  induction l with
  | nil => rfl
  | cons e l ih =>
    obtain ⟨a, c⟩ := e
    unfold lookup at ih ⊢
    simp only [List.find?_cons, entry]
    by_cases h : a = k
    · simp [h]
    · have : (a == k) = false := by simpa using h
      simp only [this, h, if_false]; exact ih

theorem write_spec (g : Cfg) (s : St) (c : Nat) (m : Seg) (room : Bool) :
    ((write g s c m room).2 = true ∧ Delivered s (write g s c m room).1 [c] m) ∨ ((write g s c m room).2 = false ∧ (write g s c m room).1 = s) := by
  unfold write
  split
  · left
    refine ⟨rfl, fun d => ?_⟩
    by_cases h : d = c
    · subst h; simp
    · have : (c == d) = false := by simpa using fun x => h x.symm
      simp [h, List.count_cons, this]
  · right; exact ⟨rfl, rfl⟩

theorem write_frame (g : Cfg) (s : St) (c : Nat) (m : Seg) (room : Bool) :
    (write g s c m room).1.peers = s.peers ∧ (write g s c m room).1.user = s.user ∧ (write g s c m room).1.cbs = s.cbs ∧
    (write g s c m room).1.disp = s.disp := by
  unfold write; split <;> exact ⟨rfl, rfl, rfl, rfl⟩

theorem trace_snoc' {g : Cfg} {s : St} {l : List Act} {t : St} {a : Act} (h : run g s l = some t) :
    trace g s (l ++ [a]) = trace g s l ++ [(t, a)] := by
  induction l generalizing s with
  | nil =>
    simp only [run, Option.some.injEq] at h; subst h
    simp only [List.nil_append, trace]
    cases step g s a <;> rfl
  | cons b l ih =>
    simp only [run] at h
    simp only [List.cons_append, trace]
    cases hs : step g s b with
    | none => rw [hs] at h; cases h
    | some x => rw [hs] at h; simp only [ih h]

theorem run_snoc' {g : Cfg} {s t : St} {l : List Act} {a : Act} :
    run g s (l ++ [a]) = some t ↔ ∃ u r, run g s l = some u ∧ step g u a = some (t, r) := by
  induction l generalizing s with
  | nil =>
    simp only [List.nil_append, run]
    constructor
    · intro h
      cases hs : step g s a with
      | none => rw [hs] at h; cases h
      | some x => rw [hs] at h; exact ⟨s, x.2, rfl, by cases h; rw [hs]⟩
    · rintro ⟨u, r, h1, h2⟩
      cases h1; rw [h2]; rfl
  | cons b l ih =>
    simp only [List.cons_append, run]
    cases step g s b with
    | none => simp
    | some x => simpa using ih

/-- `P` holds after every history if it holds at first and every step keeps it. -/
theorem history_ind' {g : Cfg} {P : List Act → St → Prop} (h0 : P [] init)
    (h1 : ∀ l s a t r, run g init l = some s → P l s → step g s a = some (t, r) → P (l ++ [a]) t) :
    ∀ l s, run g init l = some s → P l s := by
  intro l
  induction hn : l.length generalizing l with
  | zero =>
    intro s h
    have : l = [] := List.length_eq_zero_iff.mp hn
    subst this
    simp only [run, Option.some.injEq] at h; subst h; exact h0
  | succ n ih =>
    intro s h
    have hne : l ≠ [] := by intro e; subst e; cases hn
    obtain ⟨l', a, rfl⟩ : ∃ l' a, l = l' ++ [a] := ⟨l.dropLast, l.getLast hne, (List.dropLast_concat_getLast hne).symm⟩
    obtain ⟨u, r, h2, h3⟩ := run_snoc'.mp h
    exact h1 l' u a s r h2 (ih l' (by simpa using hn) u h2) h3

theorem cast_spec (g : Cfg) (m : Seg) (ps : List Nat) : ∀ (s t : St) (room : List Bool) (b : Bool) (r : Answer),
    castLoop g m s ps room b = (t, r) →
    t.peers = s.peers ∧ t.user = s.user ∧ t.cbs = s.cbs ∧ t.disp = s.disp ∧
    (∀ c, ∃ n, t.buf c = s.buf c ++ List.replicate n m) ∧
    match ps.mapM (entry s.peers) with
    | none => r = .thrown .peerNotExist
    | some cs => (r = .ret b ∧ Delivered s t cs m) ∨
      (r = .ret false ∧ (∀ c, ∃ n, n ≤ cs.count c ∧ t.buf c = s.buf c ++ List.replicate n m) ∧
        ∃ c n, n < cs.count c ∧ t.buf c = s.buf c ++ List.replicate n m) := by
  induction ps with
  | nil =>
    intro s t room b r h
    simp only [castLoop, Prod.mk.injEq] at h
    obtain ⟨rfl, rfl⟩ := h
    refine ⟨rfl, rfl, rfl, rfl, fun c => ⟨0, by simp⟩, ?_⟩
    show (_ ∧ Delivered s s [] m) ∨ _
    left; exact ⟨rfl, fun c => by simp⟩
  | cons p ps ih =>
    intro s t room b r h
    simp only [castLoop, lookup_entry] at h
    cases he : entry s.peers p with
    | none =>
      simp only [he, Prod.mk.injEq] at h
      obtain ⟨rfl, rfl⟩ := h
      refine ⟨rfl, rfl, rfl, rfl, fun c => ⟨0, by simp⟩, ?_⟩
      simp [List.mapM_cons, he]
    | some d =>
      simp only [he] at h
      have hw := write_spec g s d m (room.headD true)
      obtain ⟨f1, f2, f3, f4⟩ := write_frame g s d m (room.headD true)
      generalize write g s d m (room.headD true) = w at *
      obtain ⟨u, ok⟩ := w
      simp only at *
      obtain ⟨g1, g2, g3, g4, g5, g6⟩ := ih u t room.tail (b && ok) r h
      have hgrow : ∃ k, k ≤ 1 ∧ (ok = true → k = 1) ∧ (ok = false → k = 0) ∧
          ∀ c, u.buf c = s.buf c ++ List.replicate (if d = c then k else 0) m := by
        rcases hw with ⟨rfl, hw⟩ | ⟨rfl, rfl⟩
        · refine ⟨1, by omega, by simp, by simp, fun c => ?_⟩
          rw [hw c]
          by_cases hc : d = c
          · subst hc; simp
          · have : (d == c) = false := by simpa using hc
            simp [hc, List.count_cons, this]
        · exact ⟨0, by omega, by simp, by simp, fun c => by simp⟩
      obtain ⟨k, k1, k2, k3, k4⟩ := hgrow
      refine ⟨g1.trans f1, g2.trans f2, g3.trans f3, g4.trans f4, fun c => ?_, ?_⟩
      · obtain ⟨n, hn⟩ := g5 c
        exact ⟨_, by rw [hn, k4 c, List.append_assoc, List.replicate_append_replicate]⟩
      · rw [f1] at g6
        simp only [List.mapM_cons, he]
        cases hm : ps.mapM (entry s.peers) with
        | none => simp only [hm] at g6; simpa using g6
        | some cs =>
          simp only [hm] at g6
          show (r = .ret b ∧ Delivered s t (d :: cs) m) ∨ _
          have hcnt : ∀ c, (d :: cs).count c = (if d = c then 1 else 0) + cs.count c := by
            intro c
            rw [List.count_cons]
            by_cases hc : d = c
            · subst hc; simp; omega
            · have : (d == c) = false := by simpa using hc
              simp [hc, this]
          cases hok : ok with
          | true =>
            rw [hok] at g6
            have hk := k2 hok
            subst hk
            rcases g6 with ⟨g6, g7⟩ | ⟨g6, g7, c, n, g8, g9⟩
            · left
              refine ⟨by rw [g6, Bool.and_true], fun c => ?_⟩
              rw [g7 c, k4 c, List.append_assoc, List.replicate_append_replicate, hcnt]
            · right
              refine ⟨g6, fun c => ?_, c, (if d = c then 1 else 0) + n, ?_, ?_⟩
              · obtain ⟨n, h1, h2⟩ := g7 c
                exact ⟨_, by rw [hcnt]; exact Nat.add_le_add_left h1 _, by
                  rw [h2, k4 c, List.append_assoc, List.replicate_append_replicate]⟩
              · rw [hcnt]; exact Nat.add_lt_add_left g8 _
              · rw [g9, k4 c, List.append_assoc, List.replicate_append_replicate]
          | false =>
            rw [hok] at g6
            have hk := k3 hok
            subst hk
            have hbuf : ∀ c, u.buf c = s.buf c := fun c => by rw [k4 c]; simp
            rcases g6 with ⟨g6, g7⟩ | ⟨g6, g7, c, n, g8, g9⟩
            · right
              refine ⟨by rw [g6, Bool.and_false], fun c => ⟨cs.count c, by rw [hcnt]; omega, by rw [g7 c, hbuf]⟩, d, cs.count d, ?_, by rw [g7 d, hbuf]⟩
              rw [hcnt]; simp
            · right
              refine ⟨g6, fun c => ?_, c, n, by rw [hcnt]; omega, by rw [g9, hbuf]⟩
              obtain ⟨n, h1, h2⟩ := g7 c
              exact ⟨n, by rw [hcnt]; omega, by rw [h2, hbuf]⟩

/-- A closure whose body throws nothing has delivered its message, one that throws has not, unless it is one of a client and its buffer
refuses. -/
theorem body_spec (g : Cfg) (s t : St) (k : Call) (room : List Bool) (e : Option Err) (h : body g s k room = (t, e))
    (hc : ∀ a, k.dest = .client a → room.headD true = true ∨ g.maxSend = 0) :
    t.user = s.user ∧ t.cbs = s.cbs ∧ t.disp = s.disp ∧
    match targets s k.dest with
    | none => e = some (missing k.dest)
    | some cs => (e = none ∧ Delivered s t cs k.msg) ∨ (e = some .connNotReady ∧ ∃ c n, n < cs.count c ∧ t.buf c = s.buf c ++ List.replicate n k.msg) := by
  have key : ∀ c, t = (write g s c k.msg (room.headD true)).1 → e = (if (write g s c k.msg (room.headD true)).2 then none else some .connNotReady) →
      (t.user = s.user ∧ t.cbs = s.cbs ∧ t.disp = s.disp) ∧ ((e = none ∧ Delivered s t [c] k.msg) ∨
        (e = some .connNotReady ∧ ∃ d n, n < [c].count d ∧ t.buf d = s.buf d ++ List.replicate n k.msg)) := by
    intro c h1 h2
    obtain ⟨_, f2, f3, f4⟩ := write_frame g s c k.msg (room.headD true)
    rw [← h1] at f2 f3 f4
    refine ⟨⟨f2, f3, f4⟩, ?_⟩
    rcases write_spec g s c k.msg (room.headD true) with ⟨h3, h4⟩ | ⟨h3, h4⟩
    · left; exact ⟨by rw [h2, h3]; rfl, by rw [h1]; exact h4⟩
    · right
      exact ⟨by rw [h2, h3]; rfl, c, 0, by simp, by rw [h1, h4]; simp⟩
  have three : ∀ x : St × Bool, check (x.1, .ret x.2) = (t, e) → t = x.1 ∧ e = (if x.2 then none else some .connNotReady) := by
    rintro ⟨x, _ | _⟩ hx <;> cases hx <;> simp
  unfold body at h
  cases hd : k.dest with
  | conn c =>
    simp only [hd, sendConn] at h
    have := key c (three _ h).1 (three _ h).2
    exact ⟨this.1.1, this.1.2.1, this.1.2.2, by simpa only [targets] using this.2⟩
  | peer p =>
    simp only [hd, sendPeer, sendConn, lookup_entry] at h
    simp only [targets]
    cases he : entry s.peers p with
    | none =>
      simp only [he, Prod.mk.injEq] at h
      obtain ⟨rfl, rfl⟩ := h
      exact ⟨rfl, rfl, rfl, rfl⟩
    | some c =>
      simp only [he] at h
      have := key c (three _ h).1 (three _ h).2
      exact ⟨this.1.1, this.1.2.1, this.1.2.2, by simpa only [Option.map_some] using this.2⟩
  | client p =>
    simp only [hd, sendClient, sendConn, lookup_entry] at h
    simp only [targets]
    cases he : entry s.clients p with
    | none =>
      simp only [he, Prod.mk.injEq] at h
      obtain ⟨rfl, rfl⟩ := h
      exact ⟨rfl, rfl, rfl, rfl⟩
    | some c =>
      simp only [he, noCheck, Prod.mk.injEq] at h
      have hok : (write g s c k.msg (room.headD true)).2 = true := by
        rcases hc p hd with h | h <;> simp only [write, h] <;> simp
      have := key c h.1.symm (by rw [hok]; exact h.2.symm)
      exact ⟨this.1.1, this.1.2.1, this.1.2.2, by simpa only [Option.map_some] using this.2⟩
  | peers ps =>
    simp only [hd] at h
    simp only [targets]
    cases hr : castLoop g k.msg s ps room true with
    | mk u r =>
      have := cast_spec g k.msg ps s u room true r hr
      rw [hr] at h
      obtain ⟨_, h2, h3, h4, _, h6⟩ := this
      have hu : u = t ∧ e = (match r with | .ret true => none | .ret false => some .connNotReady | .thrown x => some x) := by
        rcases r with (_ | _) | _ <;> cases h <;> exact ⟨rfl, rfl⟩
      obtain ⟨rfl, hu⟩ := hu
      refine ⟨h2, h3, h4, ?_⟩
      split at h6
      · subst h6; exact hu
      · rcases h6 with ⟨rfl, h7⟩ | ⟨rfl, _, h7⟩
        · left; exact ⟨hu, h7⟩
        · right; exact ⟨hu, h7⟩

theorem cast_all (g : Cfg) (m : Seg) (c : Nat) (ps : List Nat) : ∀ (s : St) (room : List Bool) (b : Bool) (cs : List Nat),
    ps.mapM (entry s.peers) = some cs →
    (∀ i, cs[i]? = some c → room.getD i true = true ∨ g.maxSend = 0) →
    (castLoop g m s ps room b).1.buf c = s.buf c ++ List.replicate (cs.count c) m := by
  induction ps with
  | nil => intro s room b cs h _; simp at h; subst h; simp [castLoop]
  | cons p ps ih =>
    intro s room b cs h hr
    simp only [List.mapM_cons] at h
    cases he : entry s.peers p with
    | none => simp [he] at h
    | some d =>
      cases hm : ps.mapM (entry s.peers) with
      | none => simp [he, hm] at h
      | some ds =>
        simp only [he, hm] at h
        have h : d :: ds = cs := by simpa using h
        subst h
        simp only [castLoop, lookup_entry, he]
        rw [ih _ _ _ ds (by rw [(write_frame g s d m _).1]; exact hm) ?_]
        · have h0 := hr 0
          by_cases hd : d = c
          · subst hd
            have : (write g s d m (room.headD true)).1.buf d = s.buf d ++ [m] := by
              have : (room.headD true || g.maxSend == 0) = true := by
                rcases h0 rfl with h | h
                · cases room <;> simp_all
                · simp [h]
              simp only [write, this, if_true]
            rw [this]
            simp [List.replicate_succ]
          · have : (write g s d m (room.headD true)).1.buf c = s.buf c := by
              unfold write; split
              · simp only; rw [if_neg (fun x => hd x.symm)]
              · rfl
            have hne : (d == c) = false := by simpa using hd
            rw [this, List.count_cons, hne]; simp
        · intro i hi
          have := hr (i + 1) (by simpa using hi)
          cases room with
          | nil => simp
          | cons x xs => simpa using this

/-- Is it a deferred call? -/
def isDefer : Act → Bool
  | .defer _ _ => true
  | _ => false

/-- The id counter moves with deferred calls only. -/
theorem step_ctr {g : Cfg} {s t : St} {a : Act} {r : Ret} (h : step g s a = some (t, r)) :
    t.ctr = s.ctr + (if isDefer a then 1 else 0) := by
  have hw : ∀ (s : St) c m room, (write g s c m room).1.ctr = s.ctr := by intro s c m room; unfold write; split <;> rfl
  have hp : ∀ (s : St) c m room, (sendPeer g s c m room).1.ctr = s.ctr := by
    intro s c m room; unfold sendPeer; split
    · rfl
    · exact hw _ _ _ _
  have hc : ∀ (s : St) c m room, (sendClient g s c m room).1.ctr = s.ctr := by
    intro s c m room; unfold sendClient; split
    · rfl
    · exact hw _ _ _ _
  have hl : ∀ m ps (s : St) room b, (castLoop g m s ps room b).1.ctr = s.ctr := by
    intro m ps
    induction ps with
    | nil => intro s room b; rfl
    | cons p ps ih =>
      intro s room b
      unfold castLoop
      split
      · rfl
      · rw [ih, hw]
  have wrapq : ∀ x : St × Answer, (wrap x).1 = x.1 := by rintro ⟨x, _ | _⟩ <;> rfl
  have c1 : ∀ x : St × Answer, (check x).1 = x.1 ∧ (noCheck x).1 = x.1 := by rintro ⟨x, (_ | _) | _⟩ <;> exact ⟨rfl, rfl⟩
  cases a with
  | send d m room =>
    cases d <;> simp only [step, Option.some.injEq, Prod.mk.injEq, reduceCtorEq] at h <;> rw [← h.1]
    · rw [sendConn, hw]; simp [isDefer]
    · rw [hp]; simp [isDefer]
    · rw [hc]; simp [isDefer]
  | cSend d m room =>
    cases d <;> simp only [step, Option.some.injEq, Prod.mk.injEq, reduceCtorEq] at h <;> rw [← h.1]
    · rw [sendConn, hw]; simp [isDefer]
    · rw [wrapq, hp]; simp [isDefer]
    · rw [wrapq, hc]; simp [isDefer]
  | defer d m => simp only [step, Option.some.injEq, Prod.mk.injEq] at h; rw [← h.1]; rfl
  | dispatch room =>
    simp only [step] at h
    split at h
    · cases h
    rename_i k ks _
    simp only [Option.some.injEq, Prod.mk.injEq] at h
    rw [← h.1]
    have hr : ∀ (u : St) (e : Option Err), (report u k.id e).ctr = u.ctr := by intro u e; cases e <;> rfl
    rw [hr, body]
    split
    · rw [(c1 _).1, sendConn, hw]; simp [isDefer]
    · rw [(c1 _).1, hp]; simp [isDefer]
    · rw [(c1 _).1, hl]; simp [isDefer]
    · rw [(c1 _).2, hc]; simp [isDefer]
  | notify =>
    simp only [step] at h
    split at h
    · cases h
    · simp only [Option.some.injEq, Prod.mk.injEq] at h; rw [← h.1]; simp [isDefer]
  | take c => simp only [step, Option.some.injEq, Prod.mk.injEq] at h; rw [← h.1]; simp [isDefer]
  | peers m => simp only [step, Option.some.injEq, Prod.mk.injEq] at h; rw [← h.1]; simp [isDefer]
  | clients m => simp only [step, Option.some.injEq, Prod.mk.injEq] at h; rw [← h.1]; simp [isDefer]

end Salticidae
