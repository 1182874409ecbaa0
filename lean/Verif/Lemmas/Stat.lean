import Verif.Spec.Stat
import Verif.Lemmas.Net
namespace Salticidae
namespace Stat
open Net (Cfg)
variable {V : Type} {g : Cfg V}

/-- What a call has added to the number, and to the bytes, of messages sent from end `i`. -/
def one (i : Nat) (c : Call g) : Nat := if c.i = i ∧ 1 ≤ c.pc then 1 else 0
def siz (i : Nat) (c : Call g) : Nat := if c.i = i ∧ 2 ≤ c.pc then length g c.op c.v else 0
def one' (i : Nat) (x : Nat × BitVec (8 * g.ow) × V × Bool) : Nat := if x.1 = i then 1 else 0
def siz' (i : Nat) (x : Nat × BitVec (8 * g.ow) × V × Bool) : Nat := if x.1 = i then length g x.2.1 x.2.2.1 else 0

def n1 (i : Nat) (s : St g) : Nat := (s.sends.map (one' i)).sum + (s.calls.map (one i)).sum
def n2 (i : Nat) (s : St g) : Nat := (s.sends.map (siz' i)).sum + (s.calls.map (siz i)).sum
def r1 (i : Nat) (s : St g) : Nat := (Spec.Stat.received s i).length
def r2 (i : Nat) (s : St g) : Nat := (Spec.Stat.received s i).sum

/-- How much is added between two states. -/
structure Adds (i : Nat) (s t : St g) : Prop where
  h1 : ∃ d, n1 i t = n1 i s + d ∧ (t.cnt i).nsent = (s.cnt i).nsent + BitVec.ofNat 64 d
  h2 : ∃ d, n2 i t = n2 i s + d ∧ (t.cnt i).nsentb = (s.cnt i).nsentb + BitVec.ofNat 64 d
  h3 : ∃ l, Spec.Stat.received t i = Spec.Stat.received s i ++ l ∧ (t.cnt i).nrecv = (s.cnt i).nrecv + BitVec.ofNat 64 l.length ∧
    (t.cnt i).nrecvb = (s.cnt i).nrecvb + BitVec.ofNat 64 l.sum

theorem addOf (x : BitVec 64) (a b : Nat) : x + BitVec.ofNat 64 a + BitVec.ofNat 64 b = x + BitVec.ofNat 64 (a + b) := by
  rw [BitVec.ofNat_add, BitVec.add_assoc]

theorem Adds.refl (i : Nat) (s : St g) : Adds i s s := ⟨⟨0, by simp⟩, ⟨0, by simp⟩, ⟨[], by simp⟩⟩

theorem Adds.trans {i : Nat} {s t u : St g} (a : Adds i s t) (b : Adds i t u) : Adds i s u := by
  obtain ⟨d1, a1, a1'⟩ := a.h1
  obtain ⟨d2, a2, a2'⟩ := a.h2
  obtain ⟨l, a3, a3', a3''⟩ := a.h3
  obtain ⟨e1, b1, b1'⟩ := b.h1
  obtain ⟨e2, b2, b2'⟩ := b.h2
  obtain ⟨m, b3, b3', b3''⟩ := b.h3
  refine ⟨⟨d1 + e1, by omega, by rw [b1', a1', addOf]⟩, ⟨d2 + e2, by omega, by rw [b2', a2', addOf]⟩, ⟨l ++ m, by rw [b3, a3, List.append_assoc], ?_, ?_⟩⟩
  · rw [b3', a3', addOf, List.length_append]
  · rw [b3'', a3'', addOf, List.sum_append]

theorem sum_get {α : Type} (f : α → Nat) (l : List α) (k : Nat) (c : α) (h : l[k]? = some c) :
    (l.map f).sum = f c + ((l.eraseIdx k).map f).sum := by
  induction l generalizing k with
  | nil => simp at h
  | cons x l ih =>
    cases k with
    | zero => simp at h; subst h; simp
    | succ k =>
      have := ih k (by simpa using h)
      simp only [List.map_cons, List.sum_cons, List.eraseIdx_cons_succ]
      omega

theorem sum_set {α : Type} (f : α → Nat) (l : List α) (k : Nat) (c c' : α) (h : l[k]? = some c) :
    ((l.set k c').map f).sum = f c' + ((l.eraseIdx k).map f).sum := by
  obtain ⟨hk, rfl⟩ := List.getElem?_eq_some_iff.1 h
  rw [sum_get f (l.set k c') k c' (by simp [hk]), List.eraseIdx_set_eq]

/-- A step of the loop adds its calls at the end. -/
theorem disp_calls {beh : Disp.Handler → Disp.Msg → Disp.Beh} {burst : Nat} {d d' : Disp.St} {a : Disp.Act}
    (h : Disp.step beh burst d a = some d') : d.calls <+: d'.calls := by
  have ho : ∀ (e : Disp.St) (m : Disp.Msg), e.calls <+: (Disp.handleOne beh e m).calls := by
    intro e m
    unfold Disp.handleOne
    simp only
    split
    · exact List.prefix_refl _
    · split
      · exact List.prefix_append _ _
      · split <;> exact List.prefix_append _ _
      · exact List.prefix_append _ _
  unfold Disp.step at h
  split at h
  · cases h
  cases a with
  | handle =>
    simp only at h
    split at h
    · cases h
    · split at h
      · cases h
      · rename_i m _ _ _ ev _
        have := ho { d with ev := ev, cnt := d.cnt + 1 } m
        split at h
        · cases h; exact List.prefix_refl _
        · split at h
          · cases h; exact this
          · split at h
            · simp only [Option.map_eq_some_iff] at h
              obtain ⟨_, _, rfl⟩ := h
              exact this
            · cases h; exact this
  | reg o x => cases h; exact List.prefix_refl _
  | stop => cases h; exact List.prefix_refl _
  | _ =>
    simp only [Option.map_eq_some_iff] at h
    obtain ⟨_, _, rfl⟩ := h
    exact List.prefix_refl _

theorem recv_calls {beh : Disp.Handler → Disp.Msg → Disp.Beh} {burst : Nat} {d d' : Disp.St} {m : Disp.Msg}
    (h : Disp.step beh burst d (.recv m) = some d') : d'.calls = d.calls := by
  unfold Disp.step at h
  split at h
  · cases h
  · simp only [Option.map_eq_some_iff] at h
    obtain ⟨_, _, rfl⟩ := h
    rfl

/-- All messages in the queue, on their way to it and given to handlers. -/
structure Own (P : Disp.Msg → Prop) (d : Disp.St) : Prop where
  prods : ∀ a, .enq a ∈ d.ev.prods → P a
  q : ∀ a ∈ d.ev.q, P a
  calls : ∀ x ∈ d.calls, P x.2

theorem own_ev {P : Disp.Msg → Prop} {s t : EvQ.St Disp.Msg} {a : EvQ.Act Disp.Msg} (h : EvQ.step false s a = some t)
    (ha : ∀ m, a = .call m → P m) (h1 : ∀ a, .enq a ∈ s.prods → P a) (h2 : ∀ a ∈ s.q, P a) : (∀ a, .enq a ∈ t.prods → P a) ∧ ∀ a ∈ t.q, P a := by
  unfold EvQ.step at h
  cases a with
  | call m =>
    cases h
    refine ⟨fun a hm => ?_, h2⟩
    simp only [List.mem_append, List.mem_singleton, EvQ.PPc.enq.injEq] at hm
    rcases hm with hm | rfl
    · exact h1 a hm
    · exact ha _ rfl
  | prod i =>
    simp only at h
    split at h
    · rename_i b hb
      cases h
      refine ⟨fun a hm => ?_, fun a hm => ?_⟩
      · rcases List.mem_or_eq_of_mem_set hm with hm | hm
        · exact h1 a hm
        · cases hm
      · simp only [List.mem_append, List.mem_singleton] at hm
        rcases hm with hm | rfl
        · exact h2 a hm
        · exact h1 a (List.mem_of_getElem? hb)
    · cases h
      refine ⟨fun a hm => ?_, h2⟩
      rcases List.mem_or_eq_of_mem_set hm with hm | hm
      · exact h1 a hm
      · split at hm <;> cases hm
    · cases h
      refine ⟨fun a hm => ?_, h2⟩
      rcases List.mem_or_eq_of_mem_set hm with hm | hm
      · exact h1 a hm
      · cases hm
    · cases h
  | refuse i =>
    simp only at h
    split at h
    · cases h
      refine ⟨fun a hm => ?_, h2⟩
      rcases List.mem_or_eq_of_mem_set hm with hm | hm
      · exact h1 a hm
      · cases hm
    · cases h
  | fire j => simp only at h; split at h <;> cases h; exact ⟨h1, h2⟩
  | cons j =>
    simp only at h
    split at h
    · split at h <;> cases h <;> exact ⟨h1, h2⟩
    · cases h; exact ⟨h1, h2⟩
    · cases h; exact ⟨h1, h2⟩
    · cases h
  | deq j =>
    simp only at h
    split at h
    · rename_i hq
      cases h
      exact ⟨h1, fun a hm => h2 a (by rw [hq]; exact List.mem_cons_of_mem _ hm)⟩
    · cases h
  | empty j => simp only at h; split at h <;> cases h; exact ⟨h1, h2⟩
  | more j => simp only at h; split at h <;> cases h; exact ⟨h1, h2⟩

theorem own_step {P : Disp.Msg → Prop} {beh : Disp.Handler → Disp.Msg → Disp.Beh} {burst : Nat} {d d' : Disp.St} {a : Disp.Act}
    (h : Disp.step beh burst d a = some d') (ha : ∀ m, a = .recv m → P m) (o : Own P d) : Own P d' := by
  have ho : ∀ (e : Disp.St) (m : Disp.Msg), P m → (∀ x ∈ e.calls, P x.2) → (∀ x ∈ (Disp.handleOne beh e m).calls, P x.2) ∧ (Disp.handleOne beh e m).ev = e.ev := by
    intro e m hm hc
    have hc' : ∀ k, ∀ x ∈ e.calls ++ [(k, m)], P x.2 := by
      intro k x hx
      simp only [List.mem_append, List.mem_singleton] at hx
      rcases hx with hx | rfl
      · exact hc x hx
      · exact hm
    unfold Disp.handleOne
    simp only
    split
    · exact ⟨hc, rfl⟩
    · split
      · exact ⟨hc' _, rfl⟩
      · split <;> exact ⟨hc' _, rfl⟩
      · exact ⟨hc' _, rfl⟩
  unfold Disp.step at h
  split at h
  · cases h
  cases a with
  | handle =>
    simp only at h
    split at h
    · cases h
    · rename_i m _ hq
      split at h
      · cases h
      · rename_i ev he
        have h1 := own_ev he (by simp) o.prods o.q
        have h2 := ho { d with ev := ev, cnt := d.cnt + 1 } m (o.q m (by rw [hq]; simp)) o.calls
        split at h
        · cases h; exact ⟨h1.1, h1.2, o.calls⟩
        · split at h
          · cases h
            exact ⟨by rw [h2.2]; exact h1.1, by rw [h2.2]; exact h1.2, h2.1⟩
          · split at h
            · simp only [Option.map_eq_some_iff] at h
              obtain ⟨ev', he', rfl⟩ := h
              have h3 := own_ev he' (by simp) h1.1 h1.2
              exact ⟨h3.1, h3.2, h2.1⟩
            · cases h
              exact ⟨by rw [h2.2]; exact h1.1, by rw [h2.2]; exact h1.2, h2.1⟩
  | reg k x => cases h; exact ⟨o.prods, o.q, o.calls⟩
  | stop => cases h; exact ⟨o.prods, o.q, o.calls⟩
  | recv m =>
    simp only [Option.map_eq_some_iff] at h
    obtain ⟨ev', he', rfl⟩ := h
    have h3 := own_ev he' (by intro x hx; cases hx; exact ha _ rfl) o.prods o.q
    exact ⟨h3.1, h3.2, o.calls⟩
  | _ =>
    simp only [Option.map_eq_some_iff] at h
    obtain ⟨ev', he', rfl⟩ := h
    have h3 := own_ev he' (by simp) o.prods o.q
    exact ⟨h3.1, h3.2, o.calls⟩

/-- Messages are with the node that their end belongs to. -/
structure AtHome (g : Cfg V) (s : Net.St g) : Prop where
  disp : ∀ n, Own (fun m => g.node m.conn = n) (s.disp n)
  pend : ∀ i, ∀ m ∈ s.pend i, m.conn = i

theorem home_init (g : Cfg V) : AtHome g (Net.init g) :=
  ⟨fun n => ⟨by simp [Net.init, Net.booted, Disp.init, EvQ.init], by simp [Net.init, Net.booted, Disp.init, EvQ.init], by simp [Net.init, Net.booted, Disp.init]⟩, by simp [Net.init]⟩

theorem home_step {s t : Net.St g} {a : Net.Act g} (h : Net.step g s a = some t) (o : AtHome g s) : AtHome g t := by
  cases a with
  | send i op v ok =>
    simp only [Net.step] at h
    split at h
    · cases h
    · split at h
      · cases h; exact ⟨o.disp, o.pend⟩
      · cases h
  | io i ev =>
    simp only [Net.step] at h
    split at h
    · cases h
      refine ⟨o.disp, fun j m hm => ?_⟩
      simp only [Net.upd] at hm
      split at hm
      · rename_i e
        subst e
        simp only [List.mem_append, List.mem_map] at hm
        rcases hm with hm | ⟨x, _, rfl⟩
        · exact o.pend _ m hm
        · rfl
      · exact o.pend j m hm
    · cases h
  | net i k => cases h; exact ⟨o.disp, o.pend⟩
  | close i =>
    simp only [Net.step] at h
    split at h
    · cases h; exact ⟨o.disp, o.pend⟩
    · cases h
  | enq i =>
    simp only [Net.step] at h
    split at h
    · cases h
    · rename_i m ms hp
      split at h
      · simp only [Option.map_eq_some_iff] at h
        obtain ⟨d, hd, rfl⟩ := h
        refine ⟨fun n => ?_, fun j x hx => ?_⟩
        · simp only [Net.upd]
          split
          · rename_i e
            subst e
            refine own_step hd ?_ (o.disp _)
            intro m' hm'
            cases hm'
            rw [o.pend i m (by rw [hp]; simp)]
          · exact o.disp n
        · simp only [Net.upd] at hx
          split at hx
          · rename_i e
            subst e
            exact o.pend _ x (by rw [hp]; exact List.mem_cons_of_mem _ hx)
          · exact o.pend j x hx
      · cases h
  | disp n b =>
    simp only [Net.step] at h
    split at h
    · rename_i hb
      simp only [Option.map_eq_some_iff] at h
      obtain ⟨d, hd, rfl⟩ := h
      refine ⟨fun m => ?_, o.pend⟩
      simp only [Net.upd]
      split
      · rename_i e
        subst e
        exact own_step hd (by intro x hx; subst hx; simp [Net.byLoop] at hb) (o.disp _)
      · exact o.disp m
    · cases h

theorem countRecv_at (f : Nat → Cnt) (m : Disp.Msg) (i : Nat) :
    countRecv f m i = if m.conn = i then { f i with nrecv := (f i).nrecv + 1, nrecvb := (f i).nrecvb + BitVec.ofNat 64 (Net.uncode m.tag).length } else f i := by
  unfold countRecv Net.upd
  by_cases h : m.conn = i
  · subst h; simp
  · simp [h, Ne.symm h]

theorem fold_at (i : Nat) : ∀ (l : List (Disp.Handler × Disp.Msg)) (f : Nat → Cnt),
    let c := l.foldl (fun f x => countRecv f x.2) f i
    let m := (l.filter fun x => x.2.conn = i).map fun x => (Net.uncode x.2.tag).length
    c.nsent = (f i).nsent ∧ c.nsentb = (f i).nsentb ∧ c.nrecv = (f i).nrecv + BitVec.ofNat 64 m.length ∧ c.nrecvb = (f i).nrecvb + BitVec.ofNat 64 m.sum
  | [], f => by simp
  | x :: l, f => by
    have ih := fold_at i l (countRecv f x.2)
    simp only [countRecv_at] at ih
    simp only [List.foldl_cons]
    obtain ⟨a, b, c, d⟩ := ih
    by_cases h : x.2.conn = i
    · simp only [h, if_true] at a b c d
      refine ⟨a, b, ?_, ?_⟩
      · rw [c]; simp only [h, decide_true, List.filter_cons_of_pos, List.map_cons, List.length_cons]
        rw [Nat.add_comm, ← addOf]; rfl
      · rw [d]; simp only [h, decide_true, List.filter_cons_of_pos, List.map_cons, List.sum_cons]
        rw [addOf]
    · simp only [h, if_false] at a b c d
      refine ⟨a, b, ?_, ?_⟩
      · rw [c]; simp [h]
      · rw [d]; simp [h]

/-- A step of the system that is not a step of the loop leaves the calls of handlers as they are. -/
theorem net_calls {s t : Net.St g} {a : Net.Act g} (h : Net.step g s a = some t) (hd : ∀ n b, a ≠ .disp n b) (n : Nat) : (t.disp n).calls = (s.disp n).calls := by
  cases a with
  | disp n b => exact absurd rfl (hd n b)
  | send i op v ok =>
    simp only [Net.step] at h
    split at h
    · cases h
    · split at h
      · cases h; rfl
      · cases h
  | io i ev =>
    simp only [Net.step] at h
    split at h
    · cases h; rfl
    · cases h
  | net i k => cases h; rfl
  | close i =>
    simp only [Net.step] at h
    split at h
    · cases h; rfl
    · cases h
  | enq i =>
    simp only [Net.step] at h
    split at h
    · cases h
    · split at h
      · simp only [Option.map_eq_some_iff] at h
        obtain ⟨d, hd, rfl⟩ := h
        simp only [Net.upd]
        split
        · rename_i e; rw [e]; exact recv_calls hd
        · rfl
      · cases h

theorem step_adds {s t : St g} {a : Act g} {i : Nat} (h : step g s a = some t) (hc : ∀ f, a ≠ .store i f) (o : AtHome g s.net) : Adds i s t := by
  have quiet : ∀ t : St g, n1 i t = n1 i s → n2 i t = n2 i s → t.cnt i = s.cnt i → (∀ n, (t.net.disp n).calls = (s.net.disp n).calls) → Adds i s t := by
    intro t a b c d
    refine ⟨⟨0, by omega, by simp [c]⟩, ⟨0, by omega, by simp [c]⟩, ⟨[], ?_, by simp [c], by simp [c]⟩⟩
    simp [Spec.Stat.received, d]
  cases a with
  | call j op v =>
    cases h
    exact quiet _ (by simp [n1, one]) (by simp [n2, siz]) rfl (fun _ => rfl)
  | count k =>
    simp only [step] at h
    split at h
    · cases h
    · rename_i c hk
      split at h
      · rename_i hp
        cases h
        refine ⟨⟨one i { c with pc := 1 }, ?_, ?_⟩, ⟨0, ?_, ?_⟩, ⟨[], by simp [Spec.Stat.received], ?_, ?_⟩⟩
        · simp only [n1]
          rw [sum_set _ _ _ _ _ hk, sum_get _ _ _ _ hk]
          have : one i c = 0 := by simp [one, hp]
          omega
        · simp only [Net.upd, one]
          by_cases e : i = c.i
          · subst e; simp
          · simp [e, Ne.symm e]
        · simp only [n2]
          rw [sum_set _ _ _ _ _ hk, sum_get _ _ _ _ hk]
          simp [siz, hp]
        · simp only [Net.upd]
          by_cases e : i = c.i
          · subst e; simp
          · simp [e]
        · simp only [Net.upd]
          by_cases e : i = c.i
          · subst e; simp
          · simp [e]
        · simp only [Net.upd]
          by_cases e : i = c.i
          · subst e; simp
          · simp [e]
      · split at h
        · rename_i hp
          cases h
          refine ⟨⟨0, ?_, ?_⟩, ⟨siz i { c with pc := 2 }, ?_, ?_⟩, ⟨[], by simp [Spec.Stat.received], ?_, ?_⟩⟩
          · simp only [n1]
            rw [sum_set _ _ _ _ _ hk, sum_get _ _ _ _ hk]
            simp [one, hp]
          · simp only [Net.upd]
            by_cases e : i = c.i
            · subst e; simp
            · simp [e]
          · simp only [n2]
            rw [sum_set _ _ _ _ _ hk, sum_get _ _ _ _ hk]
            have : siz i c = 0 := by simp [siz, hp]
            omega
          · simp only [Net.upd, siz]
            by_cases e : i = c.i
            · subst e; simp
            · simp [e, Ne.symm e]
          · simp only [Net.upd]
            by_cases e : i = c.i
            · subst e; simp
            · simp [e]
          · simp only [Net.upd]
            by_cases e : i = c.i
            · subst e; simp
            · simp [e]
        · cases h
  | write k ok =>
    simp only [step] at h
    split at h
    · cases h
    · rename_i c hk
      split at h
      · rename_i hp
        simp only [Option.map_eq_some_iff] at h
        obtain ⟨u, hu, rfl⟩ := h
        refine quiet _ ?_ ?_ rfl (net_calls hu (by simp))
        · simp only [n1, List.map_append, List.sum_append]
          rw [sum_get _ _ _ _ hk]
          simp [one, one', hp]; omega
        · simp only [n2, List.map_append, List.sum_append]
          rw [sum_get _ _ _ _ hk]
          simp [siz, siz', hp]; omega
      · cases h
  | store j f =>
    cases h
    have : i ≠ j := fun e => hc f (by rw [e])
    exact quiet _ rfl rfl (by simp [Net.upd, this]) (fun _ => rfl)
  | net b =>
    cases b with
    | send => simp [step] at h
    | disp n b =>
      simp only [step, Option.map_eq_some_iff] at h
      obtain ⟨u, hu, rfl⟩ := h
      have hn : (s.net.disp n).calls <+: (u.disp n).calls ∧ ∀ m, m ≠ n → u.disp m = s.net.disp m := by
        simp only [Net.step] at hu
        split at hu
        · simp only [Option.map_eq_some_iff] at hu
          obtain ⟨d, hd, rfl⟩ := hu
          exact ⟨by simpa [Net.upd] using disp_calls hd, fun m hm => by simp [Net.upd, hm]⟩
        · cases hu
      obtain ⟨l, hl⟩ := hn.1
      have hdrop : (u.disp n).calls.drop (s.net.disp n).calls.length = l := by rw [← hl]; simp
      obtain ⟨c1, c2, c3, c4⟩ := fold_at i l s.cnt
      refine ⟨⟨0, rfl, ?_⟩, ⟨0, rfl, ?_⟩, ⟨(l.filter fun x => x.2.conn = i).map fun x => (Net.uncode x.2.tag).length, ?_, ?_, ?_⟩⟩
      · simp only [hdrop]; rw [c1]; simp
      · simp only [hdrop]; rw [c2]; simp
      · unfold Spec.Stat.received
        by_cases e : g.node i = n
        · rw [e, ← hl, List.filter_append, List.map_append]
        · simp only [hn.2 _ e]
          have : l.filter (fun x => decide (x.2.conn = i)) = [] := by
            rw [List.filter_eq_nil_iff]
            intro x hx
            have := ((home_step hu o).disp n).calls x (by rw [← hl]; exact List.mem_append_right _ hx)
            simp only [decide_eq_true_eq]
            intro e'
            exact e (by rw [← e']; exact this)
          rw [this]; simp
      · simp only [hdrop]; exact c3
      · simp only [hdrop]; exact c4
    | _ =>
      simp only [step, Option.map_eq_some_iff] at h
      obtain ⟨u, hu, rfl⟩ := h
      exact quiet _ rfl rfl rfl (net_calls hu (by simp))

/-- What the statistics are layered on. -/
structure Base (g : Cfg V) (cs : List (Nat × BitVec (8 * g.ow) × V)) (s : St g) : Prop where
  ex : ∃ bs, Net.run g (Net.init g) bs = some s.net ∧ ∀ i op v ok, Net.Act.send i op v ok ∈ bs → (i, op, v) ∈ cs
  log : ∀ i, s.net.log i = (s.sends.filter fun x => x.1 = i ∧ x.2.2.2 = true).map fun x => (x.2.1, x.2.2.1)
  calls : ∀ c ∈ s.calls, (c.i, c.op, c.v) ∈ cs
  sends : ∀ x ∈ s.sends, (x.1, x.2.1, x.2.2.1) ∈ cs

theorem net_run_snoc {s t u : Net.St g} {as : List (Net.Act g)} {a : Net.Act g} (h : Net.run g s as = some t) (ha : Net.step g t a = some u) :
    Net.run g s (as ++ [a]) = some u := by
  induction as generalizing s with
  | nil => cases h; simp [Net.run, ha]
  | cons b as ih =>
    simp only [List.cons_append, Net.run, Option.bind_eq_some_iff] at h ⊢
    obtain ⟨x, h1, h2⟩ := h
    exact ⟨x, h1, ih h2⟩

theorem net_log {s t : Net.St g} {a : Net.Act g} (h : Net.step g s a = some t) (ha : ∀ i op v ok, a ≠ .send i op v ok) : t.log = s.log := by
  cases a with
  | send i op v ok => exact absurd rfl (ha i op v ok)
  | io i ev =>
    simp only [Net.step] at h
    split at h
    · cases h; rfl
    · cases h
  | net i k => cases h; rfl
  | close i =>
    simp only [Net.step] at h
    split at h
    · cases h; rfl
    · cases h
  | enq i =>
    simp only [Net.step] at h
    split at h
    · cases h
    · split at h
      · simp only [Option.map_eq_some_iff] at h
        obtain ⟨d, hd, rfl⟩ := h
        rfl
      · cases h
  | disp n b =>
    simp only [Net.step] at h
    split at h
    · simp only [Option.map_eq_some_iff] at h
      obtain ⟨d, hd, rfl⟩ := h
      rfl
    · cases h

theorem net_step_base {cs : List (Nat × BitVec (8 * g.ow) × V)} {s : St g} {u : Net.St g} {a : Net.Act g} {f : Nat → Cnt} (o : Base g cs s)
    (h : Net.step g s.net a = some u) (ha : ∀ i op v ok, a ≠ .send i op v ok) : Base g cs { s with net := u, cnt := f } := by
  obtain ⟨bs, b1, b2⟩ := o.ex
  refine ⟨⟨bs ++ [a], net_run_snoc b1 h, fun i op v ok hm => ?_⟩, fun i => ?_, o.calls, o.sends⟩
  · simp only [List.mem_append, List.mem_singleton] at hm
    rcases hm with hm | hm
    · exact b2 i op v ok hm
    · exact absurd hm.symm (ha i op v ok)
  · simp only [net_log h ha]; exact o.log i

theorem step_base {cs : List (Nat × BitVec (8 * g.ow) × V)} {s t : St g} {a : Act g} (h : step g s a = some t) (ha : ∀ i op v, a = .call i op v → (i, op, v) ∈ cs)
    (o : Base g cs s) : Base g cs t := by
  cases a with
  | call i op v =>
    cases h
    refine ⟨o.ex, o.log, fun c hc => ?_, o.sends⟩
    simp only [List.mem_append, List.mem_singleton] at hc
    rcases hc with hc | rfl
    · exact o.calls c hc
    · exact ha i op v rfl
  | count k =>
    simp only [step] at h
    split at h
    · cases h
    · rename_i c hk
      have hc := o.calls c (List.mem_of_getElem? hk)
      have hall : ∀ p, ∀ x ∈ s.calls.set k { c with pc := p }, (x.i, x.op, x.v) ∈ cs := by
        intro p x hx
        rcases List.mem_or_eq_of_mem_set hx with hx | rfl
        · exact o.calls x hx
        · exact hc
      split at h
      · cases h; exact ⟨o.ex, o.log, hall 1, o.sends⟩
      · split at h
        · cases h; exact ⟨o.ex, o.log, hall 2, o.sends⟩
        · cases h
  | write k ok =>
    simp only [step] at h
    split at h
    · cases h
    · rename_i c hk
      have hc := o.calls c (List.mem_of_getElem? hk)
      split at h
      · simp only [Option.map_eq_some_iff] at h
        obtain ⟨u, hu, rfl⟩ := h
        obtain ⟨bs, b1, b2⟩ := o.ex
        refine ⟨⟨_, net_run_snoc b1 hu, fun i op v b hm => ?_⟩, fun i => ?_, fun x hx => o.calls x (List.mem_of_mem_eraseIdx hx), fun x hx => ?_⟩
        · simp only [List.mem_append, List.mem_singleton, Net.Act.send.injEq] at hm
          rcases hm with hm | ⟨rfl, rfl, rfl, rfl⟩
          · exact b2 i op v b hm
          · exact hc
        · simp only [Net.step] at hu
          split at hu
          · cases hu
          · split at hu
            · cases hu
              simp only [List.filter_append, List.map_append, ← o.log i]
              cases ok with
              | false => simp
              | true =>
                simp only [if_true, Net.upd]
                by_cases e : i = c.i
                · subst e; simp
                · simp [e, Ne.symm e]
            · cases hu
        · simp only [List.mem_append, List.mem_singleton] at hx
          rcases hx with hx | rfl
          · exact o.sends x hx
          · exact hc
      · cases h
  | store j f => cases h; exact ⟨o.ex, o.log, o.calls, o.sends⟩
  | net b =>
    cases b with
    | send => simp [step] at h
    | disp n b =>
      simp only [step, Option.map_eq_some_iff] at h
      obtain ⟨u, hu, rfl⟩ := h
      exact net_step_base o hu (by simp)
    | _ =>
      simp only [step, Option.map_eq_some_iff] at h
      obtain ⟨u, hu, rfl⟩ := h
      exact net_step_base (f := s.cnt) o hu (by simp)

theorem run_base {cs : List (Nat × BitVec (8 * g.ow) × V)} {as : List (Act g)} {s t : St g} (h : run g s as = some t)
    (ha : ∀ i op v, .call i op v ∈ as → (i, op, v) ∈ cs) (o : Base g cs s) : Base g cs t := by
  induction as generalizing s with
  | nil => cases h; exact o
  | cons a as ih =>
    simp only [run, Option.bind_eq_some_iff] at h
    obtain ⟨u, h1, h2⟩ := h
    exact ih h2 (fun i op v hm => ha i op v (by simp [hm])) (step_base h1 (fun i op v e => ha i op v (by simp [e])) o)

theorem base_init (g : Cfg V) (cs : List (Nat × BitVec (8 * g.ow) × V)) : Base g cs (init g) :=
  ⟨⟨[], rfl, by simp⟩, by simp [init, Net.init], by simp [init], by simp [init]⟩

theorem net_home {as : List (Net.Act g)} {s t : Net.St g} (h : Net.run g s as = some t) (o : AtHome g s) : AtHome g t := by
  induction as generalizing s with
  | nil => cases h; exact o
  | cons a as ih =>
    simp only [Net.run, Option.bind_eq_some_iff] at h
    obtain ⟨u, h1, h2⟩ := h
    exact ih h2 (home_step h1 o)

theorem Base.home {cs : List (Nat × BitVec (8 * g.ow) × V)} {s : St g} (o : Base g cs s) : AtHome g s.net := by
  obtain ⟨bs, h, _⟩ := o.ex
  exact net_home h (home_init g)

theorem run_adds {cs : List (Nat × BitVec (8 * g.ow) × V)} {as : List (Act g)} {s t : St g} {i : Nat} (h : run g s as = some t)
    (ha : ∀ i op v, .call i op v ∈ as → (i, op, v) ∈ cs) (o : Base g cs s) (hn : Spec.Stat.NoClear i as) : Adds i s t := by
  induction as generalizing s with
  | nil => cases h; exact Adds.refl _ _
  | cons a as ih =>
    simp only [run, Option.bind_eq_some_iff] at h
    obtain ⟨u, h1, h2⟩ := h
    have hs := step_base h1 (fun i op v e => ha i op v (by simp [e])) o
    exact (step_adds h1 (fun f e => hn f (by simp [e])) o.home).trans
      (ih h2 (fun i op v hm => ha i op v (by simp [hm])) hs (fun f hm => hn f (by simp [hm])))

/-- The calls of a list of actions. -/
def callsOf (as : List (Act g)) : List (Nat × BitVec (8 * g.ow) × V) :=
  as.filterMap fun | .call i op v => some (i, op, v) | _ => none

theorem mem_callsOf {as : List (Act g)} {i : Nat} {op : BitVec (8 * g.ow)} {v : V} : (i, op, v) ∈ callsOf as ↔ Act.call i op v ∈ as := by
  unfold callsOf
  rw [List.mem_filterMap]
  constructor
  · rintro ⟨a, ha, h⟩
    split at h
    · cases h; exact ha
    · cases h
  · intro h
    exact ⟨_, h, rfl⟩

theorem length_eq {op : BitVec (8 * g.ow)} {v : V} (ho : (g.enc op v).offset = 0) (hl : (g.enc op v).buffer.length < 2 ^ 32) :
    length g op v = (g.enc op v).buffer.length := by
  have h1 : (g.enc op v).toBytesLvalue = .ok (g.enc op v) (g.enc op v).buffer := by simp [DataStream.toBytesLvalue, ho]
  unfold length
  simp only [Msg.ofTyped, h1, Msg.setChecksum, Msg.getChecksum, Msg.setPayload, Msg.setOpcode, Msg.fresh, Bool.false_eq_true, if_false, Option.map_some, BitVec.toNat_ofNat]
  omega

theorem sum_one (i : Nat) (l : List (Nat × BitVec (8 * g.ow) × V × Bool)) : (l.map (one' i)).sum = (l.filter fun x => x.1 = i).length := by
  induction l with
  | nil => rfl
  | cons x l ih =>
    simp only [List.map_cons, List.sum_cons, ih, one']
    by_cases e : x.1 = i
    · simp [e]; omega
    · simp [e]

theorem sum_siz (i : Nat) (l : List (Nat × BitVec (8 * g.ow) × V × Bool)) (h : ∀ x ∈ l, length g x.2.1 x.2.2.1 = (g.enc x.2.1 x.2.2.1).buffer.length) :
    (l.map (siz' i)).sum = ((l.filter fun x => x.1 = i).map fun x => (g.enc x.2.1 x.2.2.1).buffer.length).sum := by
  induction l with
  | nil => rfl
  | cons x l ih =>
    have ih := ih fun y hy => h y (by simp [hy])
    simp only [List.map_cons, List.sum_cons, ih, siz', h x (by simp)]
    by_cases e : x.1 = i
    · simp [e]
    · simp [e]

theorem sum_none {f : Call g → Nat} {l : List (Call g)} (h : ∀ c ∈ l, f c = 0) : (l.map f).sum = 0 := by
  induction l with
  | nil => rfl
  | cons c l ih => simp [h c (by simp), ih fun x hx => h x (by simp [hx])]

/-- The run of the system below is proper. -/
theorem net_proper {as : List (Act g)} (hp : Spec.Stat.Proper g as) {bs : List (Net.Act g)}
    (hb : ∀ i op v ok, Net.Act.send i op v ok ∈ bs → (i, op, v) ∈ callsOf as) : Spec.Net.Proper g bs :=
  ⟨fun i op v ok hm => hp.codec i op v (mem_callsOf.1 (hb i op v ok hm)), hp.sizes,
   fun i op v ok hm => hp.fits i op v (mem_callsOf.1 (hb i op v ok hm)), fun i op v ok hm => hp.handler i op v (mem_callsOf.1 (hb i op v ok hm))⟩

theorem run_append {s : St g} {as bs : List (Act g)} : run g s (as ++ bs) = (run g s as).bind fun t => run g t bs := by
  induction as generalizing s with
  | nil => rfl
  | cons a as ih =>
    simp only [List.cons_append, run]
    cases step g s a with
    | none => rfl
    | some u => simp [ih]

end Stat
end Salticidae
