import Verif.Lemmas.Stat
import Verif.Props.Net
/-
C102: message statistics.
-/
namespace Salticidae
open Stat
open Net (Cfg mate)

/-- No call of send_msg is going on at end `i`. -/
def Stat.Calm {V : Type} {g : Cfg V} (s : St g) (i : Nat) : Prop := ∀ c ∈ s.calls, c.i ≠ i

theorem Stat.step_sends {V : Type} {g : Cfg V} {s t : St g} {a : Act g} (h : step g s a = some t) : s.sends <+: t.sends := by
  cases a with
  | call i op v => cases h; exact List.prefix_refl _
  | count k =>
    simp only [step] at h
    split at h
    · cases h
    · split at h
      · cases h; exact List.prefix_refl _
      · split at h
        · cases h; exact List.prefix_refl _
        · cases h
  | write k ok =>
    simp only [step] at h
    split at h
    · cases h
    · split at h
      · simp only [Option.map_eq_some_iff] at h
        obtain ⟨u, _, rfl⟩ := h
        exact List.prefix_append _ _
      · cases h
  | store j f => cases h; exact List.prefix_refl _
  | net b =>
    cases b with
    | send => simp [step] at h
    | _ =>
      simp only [step, Option.map_eq_some_iff] at h
      obtain ⟨u, _, rfl⟩ := h
      exact List.prefix_refl _

theorem Stat.run_sends {V : Type} {g : Cfg V} {as : List (Act g)} {s t : St g} (h : run g s as = some t) : s.sends <+: t.sends := by
  induction as generalizing s with
  | nil => cases h; exact List.prefix_refl _
  | cons a as ih =>
    simp only [run, Option.bind_eq_some_iff] at h
    obtain ⟨u, h1, h2⟩ := h
    exact (step_sends h1).trans (ih h2)

/-- C102, what is counted.  Between two moments at which no send_msg is going on at an end, and without clear_msgstat in between, the counters of the
end grow by the number and the payload bytes of the messages that send_msg was called with (whatever it returned), and of the messages
that handlers were called with; modulo 2^64. -/
theorem C102_counts {V : Type} (g : Cfg V) (as bs : List (Act g)) (s t : St g) (hp : Spec.Stat.Proper g (as ++ bs))
    (h1 : run g (init g) as = some s) (h2 : run g s bs = some t) (i : Nat) (hn : Spec.Stat.NoClear i bs) (cs : Calm s i) (ct : Calm t i) :
    (∃ l, Spec.Stat.offered t i = Spec.Stat.offered s i ++ l ∧
      (t.cnt i).nsent = (s.cnt i).nsent + BitVec.ofNat 64 l.length ∧ (t.cnt i).nsentb = (s.cnt i).nsentb + BitVec.ofNat 64 l.sum) ∧
    ∃ l, Spec.Stat.received t i = Spec.Stat.received s i ++ l ∧
      (t.cnt i).nrecv = (s.cnt i).nrecv + BitVec.ofNat 64 l.length ∧ (t.cnt i).nrecvb = (s.cnt i).nrecvb + BitVec.ofNat 64 l.sum := by
  have b1 := run_base (cs := callsOf (as ++ bs)) h1 (fun i op v hm => mem_callsOf.2 (by simp [hm])) (base_init g _)
  have ha := run_adds (cs := callsOf (as ++ bs)) h2 (fun i op v hm => mem_callsOf.2 (by simp [hm])) b1 hn
  have b2 := run_base (cs := callsOf (as ++ bs)) h2 (fun i op v hm => mem_callsOf.2 (by simp [hm])) b1
  refine ⟨?_, ha.h3⟩
  have hlen : ∀ x ∈ t.sends, length g x.2.1 x.2.2.1 = (g.enc x.2.1 x.2.2.1).buffer.length := by
    intro x hx
    have hm := mem_callsOf.1 (b2.sends x hx)
    exact length_eq (hp.codec _ _ _ hm).1 (hp.fits _ _ _ hm).2
  obtain ⟨l, hl⟩ := Stat.run_sends h2
  have z1 : ∀ u : St g, Calm u i → (u.calls.map (one i)).sum = 0 ∧ (u.calls.map (siz i)).sum = 0 := fun u hu =>
    ⟨sum_none fun c hc => by simp [one, hu c hc], sum_none fun c hc => by simp [siz, hu c hc]⟩
  refine ⟨(l.filter fun x => x.1 = i).map fun x => (g.enc x.2.1 x.2.2.1).buffer.length, ?_, ?_, ?_⟩
  · unfold Spec.Stat.offered; rw [← hl, List.filter_append, List.map_append]
  · obtain ⟨d, e1, e2⟩ := ha.h1
    simp only [n1, (z1 s cs).1, (z1 t ct).1, ← hl, List.map_append, List.sum_append, sum_one] at e1
    rw [e2, List.length_map]
    congr 2; omega
  · obtain ⟨d, e1, e2⟩ := ha.h2
    simp only [n2, (z1 s cs).2, (z1 t ct).2, ← hl, List.map_append, List.sum_append] at e1
    rw [sum_siz i l (fun x hx => hlen x (by rw [← hl]; simp [hx]))] at e1
    rw [e2]
    congr 2; omega

/-- clear_msgstat, when nothing comes in between: it sets the counters of the end to zero and changes nothing else. -/
theorem C102_clear {V : Type} (g : Cfg V) (s : St g) (i : Nat) :
    ∃ t, run g s (clear i) = some t ∧ t.cnt i = ⟨0, 0, 0, 0⟩ ∧ (∀ j, j ≠ i → t.cnt j = s.cnt j) ∧ t.net = s.net ∧ t.calls = s.calls ∧ t.sends = s.sends := by
  refine ⟨_, rfl, ?_, ?_, rfl, rfl, rfl⟩
  · simp [Net.upd, clearOne]
  · intro j hj
    simp [Net.upd, hj]

/-- C102, after clear_msgstat.  If it runs at a moment at which no send_msg is going on at the end, then, whenever that is so again and it was not called
again, the counters tell the number and the payload bytes of the messages that send_msg was called with, and of those given to handlers, since then. -/
theorem C102_since_clear {V : Type} (g : Cfg V) (as bs : List (Act g)) (s t : St g) (i : Nat) (hp : Spec.Stat.Proper g (as ++ clear i ++ bs))
    (h1 : run g (init g) as = some s) (h2 : run g s (clear i ++ bs) = some t) (hn : Spec.Stat.NoClear i bs) (cs : Calm s i) (ct : Calm t i) :
    (∃ l, Spec.Stat.offered t i = Spec.Stat.offered s i ++ l ∧
      (t.cnt i).nsent = BitVec.ofNat 64 l.length ∧ (t.cnt i).nsentb = BitVec.ofNat 64 l.sum) ∧
    ∃ l, Spec.Stat.received t i = Spec.Stat.received s i ++ l ∧
      (t.cnt i).nrecv = BitVec.ofNat 64 l.length ∧ (t.cnt i).nrecvb = BitVec.ofNat 64 l.sum := by
  obtain ⟨u, e, z, _, n1, c1, d1⟩ := C102_clear g s i
  have app : ∀ (xs ys : List (Act g)) (s : St g), run g s (xs ++ ys) = (run g s xs).bind fun s => run g s ys := by
    intro xs ys
    induction xs with
    | nil => intro s; rfl
    | cons x xs ih => intro s; simp only [List.cons_append, run]; cases step g s x with
      | none => rfl
      | some v => exact ih v
  rw [app, e] at h2
  have h1' : run g (init g) (as ++ clear i) = some u := by rw [app, h1]; exact e
  have := C102_counts g (as ++ clear i) bs u t hp h1' h2 i hn (by unfold Calm; rw [c1]; exact cs) ct
  rw [z] at this
  simpa [Spec.Stat.offered, Spec.Stat.received, n1, d1] using this

/-- C102.  The counters of an end are right, whenever no send_msg is going on there: they tell number and size of the messages that were accepted for sending, and of
those given to handlers, since some moment. -/
def C102_statement : Prop :=
  ∀ (V : Type) (g : Cfg V) (as : List (Act g)) (s : St g), Spec.Stat.Proper g as → run g (init g) as = some s → ∀ i, Calm s i →
    Spec.Stat.Right (s.cnt i).nsent (s.cnt i).nsentb (Spec.Stat.accepted s i) ∧ Spec.Stat.Right (s.cnt i).nrecv (s.cnt i).nrecvb (Spec.Stat.received s i)

/-- C102, the part that holds: from a moment at which the counters of the end are zero and no send_msg is going on there, as long as no call of send_msg there is refused
and clear_msgstat is not called again.  Missing: refused messages are counted as sent, and clear_msgstat may come between the two
counters of a message. -/
theorem C102_right_partial {V : Type} (g : Cfg V) (as bs : List (Act g)) (s t : St g) (hp : Spec.Stat.Proper g (as ++ bs))
    (h1 : run g (init g) as = some s) (h2 : run g s bs = some t) (i : Nat) (hz : s.cnt i = .zero) (hn : Spec.Stat.NoClear i bs)
    (cs : Calm s i) (ct : Calm t i) (hr : ∀ k : Nat, s.sends.length ≤ k → ∀ x, t.sends[k]? = some x → x.1 = i → x.2.2.2 = true) :
    Spec.Stat.Right (t.cnt i).nsent (t.cnt i).nsentb (Spec.Stat.accepted t i) ∧ Spec.Stat.Right (t.cnt i).nrecv (t.cnt i).nrecvb (Spec.Stat.received t i) := by
  obtain ⟨⟨l, a1, a2, a3⟩, m, c1, c2, c3⟩ := C102_counts g as bs s t hp h1 h2 i hn cs ct
  rw [hz] at a2 a3 c2 c3
  simp only [Cnt.zero, BitVec.zero_add, BitVec.ofNat_eq_ofNat] at a2 a3 c2 c3
  constructor
  · obtain ⟨r, hl⟩ := Stat.run_sends h2
    have hr' : ∀ x ∈ r, x.1 = i → x.2.2.2 = true := by
      intro x hx
      obtain ⟨k, hk⟩ := List.getElem?_of_mem hx
      exact hr (s.sends.length + k) (by omega) x (by rw [← hl, List.getElem?_append_right (by omega)]; simpa using hk)
    have e : Spec.Stat.accepted t i = Spec.Stat.accepted s i ++ l := by
      unfold Spec.Stat.offered at a1
      unfold Spec.Stat.accepted
      rw [← hl, List.filter_append, List.map_append] at a1 ⊢
      have := List.append_cancel_left a1
      rw [← this]
      congr 2
      apply List.filter_congr
      intro x hx
      by_cases e : x.1 = i
      · simp [e, hr' x hx e]
      · simp [e]
    exact ⟨(Spec.Stat.accepted s i).length, by rw [e, List.drop_left]; exact a2, by rw [e, List.drop_left]; exact a3⟩
  · exact ⟨(Spec.Stat.received s i).length, by rw [c1, List.drop_left]; exact c2, by rw [c1, List.drop_left]; exact c3⟩

/-- C102, both ends of a connection.  Without clear_msgstat: an end has never counted more messages received than the other has counted sent (for
fewer than 2^64 steps); and when everything sent to it has come through, no send_msg is going on at the other end and none was refused there, the counters agree. -/
theorem C102_both_ends_partial {V : Type} (g : Cfg V) (as : List (Act g)) (s : St g) (hp : Spec.Stat.Proper g as) (h : run g (init g) as = some s) (i : Nat)
    (hi : Spec.Stat.NoClear i as) (hm : Spec.Stat.NoClear (mate i) as) :
    (as.length < 2 ^ 64 → (s.cnt i).nrecv.toNat ≤ (s.cnt (mate i)).nsent.toNat) ∧
    (Net.drained g s.net i → Calm s (mate i) → (∀ x ∈ s.sends, x.1 = mate i → x.2.2.2 = true) →
      (s.cnt i).nrecv = (s.cnt (mate i)).nsent ∧ (s.cnt i).nrecvb = (s.cnt (mate i)).nsentb) := by
  have hb := run_base (cs := callsOf as) h (fun i op v hm => mem_callsOf.2 hm) (base_init g _)
  have a1 := run_adds (cs := callsOf as) h (fun i op v hm => mem_callsOf.2 hm) (base_init g _) hi
  have a2 := run_adds (cs := callsOf as) h (fun i op v hm => mem_callsOf.2 hm) (base_init g _) hm
  obtain ⟨bs, hr, hs⟩ := hb.ex
  obtain ⟨l, l1, l2, l3, l4⟩ := Net.calls_of_log g bs s.net (net_proper hp hs) hr i
  have hrec : Spec.Stat.received s i = l.map fun m => (g.enc m.1 m.2).buffer.length := by
    unfold Spec.Stat.received
    rw [l4]
    clear l1 l3 l4
    induction l with
    | nil => rfl
    | cons m l ih =>
      have hh := (l2 m (by simp)).handler
      rw [Net.mate_mate] at hh
      obtain ⟨x, hh⟩ := Option.ne_none_iff_exists'.1 hh
      have ih := ih fun x hx => l2 x (by simp [hx])
      simp only [List.map_cons, List.filterMap_cons, Net.itemOf, hh, Option.map_some] at ih ⊢
      rw [ih, Net.uncode_code]
  obtain ⟨r, r1, r2, r3⟩ := a1.h3
  have r0 : Spec.Stat.received (init g) i = [] := by simp [Spec.Stat.received, init, Net.init, Net.booted, Disp.init]
  rw [r0, List.nil_append] at r1
  obtain ⟨d, d1, d2⟩ := a2.h1
  have z : n1 (mate i) (init g) = 0 := by simp [n1, init]
  rw [z, Nat.zero_add] at d1
  subst d1
  simp only [init, Cnt.zero, BitVec.zero_add, BitVec.ofNat_eq_ofNat] at r2 r3 d2
  rw [← r1, hrec] at r2 r3
  constructor
  · intro hlt
    have hcount : ∀ (as : List (Act g)) (s t : St g), run g s as = some t → t.sends.length + t.calls.length ≤ s.sends.length + s.calls.length + as.length := by
      intro as
      induction as with
      | nil => intro s t h; cases h; simp
      | cons a as ih =>
        intro s t h
        simp only [run, Option.bind_eq_some_iff] at h
        obtain ⟨u, h1, h2⟩ := h
        have := ih u t h2
        have hu : u.sends.length + u.calls.length ≤ s.sends.length + s.calls.length + 1 := by
          cases a with
          | call i op v => cases h1; simp; omega
          | count k =>
            simp only [step] at h1
            split at h1
            · cases h1
            · split at h1
              · cases h1; simp
              · split at h1
                · cases h1; simp
                · cases h1
          | write k ok =>
            simp only [step] at h1
            split at h1
            · cases h1
            · rename_i hk
              split at h1
              · simp only [Option.map_eq_some_iff] at h1
                obtain ⟨u, _, rfl⟩ := h1
                have hk := (List.getElem?_eq_some_iff.1 hk).1
                simp [List.length_eraseIdx, hk]; omega
              · cases h1
          | store j f => cases h1; simp
          | net b =>
            cases b with
            | send => simp [step] at h1
            | _ =>
              simp only [step, Option.map_eq_some_iff] at h1
              obtain ⟨u, _, rfl⟩ := h1
              simp
        simp only [List.length_cons]; omega
    have hc := hcount as _ _ h
    have hle : n1 (mate i) s ≤ s.sends.length + s.calls.length := by
      have q1 : ∀ l : List (Nat × BitVec (8 * g.ow) × V × Bool), (l.map (one' (mate i))).sum ≤ l.length := by
        intro l
        induction l with
        | nil => simp
        | cons x l ih => simp only [List.map_cons, List.sum_cons, List.length_cons, one']; split <;> omega
      have q2 : ∀ l : List (Call g), (l.map (one (mate i))).sum ≤ l.length := by
        intro l
        induction l with
        | nil => simp
        | cons x l ih => simp only [List.map_cons, List.sum_cons, List.length_cons, one]; split <;> omega
      exact Nat.add_le_add (q1 _) (q2 _)
    have hll : l.length ≤ n1 (mate i) s := by
      have e := l1.length_le
      rw [hb.log (mate i), List.length_map] at e
      have f : (s.sends.filter fun x => x.1 = mate i ∧ x.2.2.2 = true).length ≤ (s.sends.filter fun x => x.1 = mate i).length := by
        have : (s.sends.filter fun x => x.1 = mate i ∧ x.2.2.2 = true) = (s.sends.filter fun x => x.1 = mate i).filter (fun x => x.2.2.2) := by
          rw [List.filter_filter]
          apply List.filter_congr
          intro x _
          rw [Bool.eq_iff_iff]
          simp [and_comm]
        rw [this]
        exact List.length_filter_le _ _
      unfold n1
      rw [sum_one]
      exact Nat.le_trans e (Nat.le_trans f (Nat.le_add_right _ _))
    simp only [init, List.length_nil] at hc
    rw [r2, d2, BitVec.toNat_ofNat, BitVec.toNat_ofNat, List.length_map, Nat.mod_eq_of_lt (by omega), Nat.mod_eq_of_lt (by omega)]
    exact hll
  · intro hd hcalm hacc
    have e := l3 hd
    rw [hb.log (mate i)] at e
    obtain ⟨d', d1', d2'⟩ := a2.h2
    have z' : n2 (mate i) (init g) = 0 := by simp [n2, init]
    rw [z', Nat.zero_add] at d1'
    subst d1'
    simp only [init, Cnt.zero, BitVec.zero_add, BitVec.ofNat_eq_ofNat] at d2'
    have hf : (s.sends.filter fun x => x.1 = mate i ∧ x.2.2.2 = true) = s.sends.filter fun x => x.1 = mate i := by
      apply List.filter_congr
      intro x hx
      by_cases e : x.1 = mate i
      · simp [e, hacc x hx e]
      · simp [e]
    rw [hf] at e
    have hlen : ∀ x ∈ s.sends, length g x.2.1 x.2.2.1 = (g.enc x.2.1 x.2.2.1).buffer.length := by
      intro x hx
      have hm := mem_callsOf.1 (hb.sends x hx)
      exact length_eq (hp.codec _ _ _ hm).1 (hp.fits _ _ _ hm).2
    refine ⟨?_, ?_⟩
    · rw [r2, d2, e]
      simp only [n1, sum_one, List.length_map]
      rw [sum_none fun c hc => by simp [one, hcalm c hc], Nat.add_zero]
    · rw [r3, d2', e]
      simp only [n2, sum_siz _ _ hlen, List.map_map]
      rw [sum_none fun c hc => by simp [siz, hcalm c hc], Nat.add_zero]
      rfl

/-- A call of send_msg that is not disturbed. -/
def Stat.sendAll {V : Type} {g : Cfg V} (i : Nat) (op : BitVec (8 * g.ow)) (v : V) (ok : Bool) : List (Act g) := [.call i op v, .count 0, .count 0, .write 0 ok]

/-- The sample of C98, with statistics. -/
def Stat.sampleRun (refuse : Bool) : List (Act Net.sample) :=
  Net.sampleRun.flatMap fun
    | .send i op v ok => if ok then sendAll i op v ok else if refuse then sendAll i op v ok else []
    | a => [.net a]

theorem Stat.sample_proper (as : List (Act Net.sample)) (h : ∀ x ∈ callsOf as, x ∈ [(0, 5, 300), (0, 6, 301), (1, 5, 900), (0, 5, 302), (0, 5, 303)]) :
    Spec.Stat.Proper Net.sample as := by
  have all : ∀ x ∈ ([(0, 5, 300), (0, 6, 301), (1, 5, 900), (0, 5, 302), (0, 5, 303)] : List (Nat × BitVec (8 * Net.sample.ow) × BitVec 16)),
      ((Net.sample.enc x.2.1 x.2.2).offset = 0 ∧ Net.sample.dec x.2.1.toNat (DataStream.ofBytes (Net.sample.enc x.2.1 x.2.2).buffer) = some x.2.2) ∧
      ((Net.sample.enc x.2.1 x.2.2).buffer.length ≤ Net.sample.maxMsg (mate x.1) ∧ (Net.sample.enc x.2.1 x.2.2).buffer.length < 2 ^ 32) ∧
      Spec.Net.handlerOf (Net.sample.handlers (Net.sample.node (mate x.1))) x.2.1.toNat ≠ none := by decide
  exact ⟨fun i op v hm => (all _ (h _ (mem_callsOf.2 hm))).1, fun _ => by simp [Net.sample], fun i op v hm => (all _ (h _ (mem_callsOf.2 hm))).2.1,
    fun i op v hm => (all _ (h _ (mem_callsOf.2 hm))).2.2⟩

/-- Without refused messages: three messages of two bytes each have been counted at both ends of the connection. -/
example : ∃ s, run Net.sample (init Net.sample) (sampleRun false) = some s ∧ Spec.Stat.Proper Net.sample (sampleRun false) ∧
    Spec.Stat.NoClear 0 (sampleRun false) ∧ Spec.Stat.NoClear 1 (sampleRun false) ∧ Calm s (mate 1) ∧
    (∀ x ∈ s.sends, x.1 = mate 1 → x.2.2.2 = true) ∧ Net.drained Net.sample s.net 1 ∧
    s.cnt 0 = ⟨3, 6, 0, 0⟩ ∧ s.cnt 1 = ⟨1, 2, 3, 6⟩ := by
  have h : (run Net.sample (init Net.sample) (sampleRun false)).map (fun s => ((((s.net.conn 0).sendq.isEmpty && (s.net.conn 1).arrived == (s.net.conn 0).sent && (s.net.conn 1).sock.isEmpty &&
      (s.net.conn 1).readOn && !(s.net.conn 1).poll && !(s.net.conn 1).killed && (s.net.pend 1).isEmpty && Disp.atRest (s.net.disp 1)), s.calls.isEmpty, s.sends.all (·.2.2.2)), s.cnt 0, s.cnt 1))
    = some ((true, true, true), ⟨3, 6, 0, 0⟩, ⟨1, 2, 3, 6⟩) := by
    decide +kernel
  obtain ⟨s, h1, h2⟩ := Option.map_eq_some_iff.mp h
  simp only [Prod.mk.injEq, Bool.and_eq_true, List.isEmpty_iff, beq_iff_eq, Bool.not_eq_true', List.all_eq_true] at h2
  obtain ⟨⟨⟨⟨⟨⟨⟨⟨⟨a1, a2⟩, a3⟩, a4⟩, a5⟩, a6⟩, a7⟩, a8⟩, a9, a10⟩, a11, a12⟩ := h2
  have hs : ∀ i f, Act.store i f ∉ sampleRun false := by
    intro i f hm
    have : (sampleRun false).all (fun | .store _ _ => false | _ => true) = true := by decide +kernel
    rw [List.all_eq_true] at this
    cases this _ hm
  exact ⟨s, h1, sample_proper _ (by decide +kernel), hs 0, hs 1, by simp [Calm, a9], fun x hx _ => a10 x hx, ⟨a1, a2, a3, a4, a5, a6, a7, a8⟩, a11, a12⟩

instance Stat.decOut : DecidableEq (Bool × Cnt × Nat) := inferInstance
instance Stat.decOut' : DecidableEq (Bool × Cnt × List (Nat × Bool)) := inferInstance

/-- Cleared, then one message. -/
example : ∃ s t, run Net.sample (init Net.sample) (sendAll 0 5 300 true ++ clear 0) = some s ∧ run Net.sample s (sendAll 0 6 301 true) = some t ∧
    Spec.Stat.Proper Net.sample ((sendAll 0 5 300 true ++ clear 0) ++ sendAll 0 6 301 true) ∧ s.cnt 0 = .zero ∧ Calm s 0 ∧ Calm t 0 ∧
    s.sends.length = 1 ∧ t.sends.map (fun y => (y.1, y.2.2.2)) = [(0, true), (0, true)] ∧ t.cnt 0 = ⟨1, 2, 0, 0⟩ := by
  have h : ((run Net.sample (init Net.sample) (sendAll 0 5 300 true ++ clear 0)).bind (fun s => (run Net.sample s (sendAll 0 6 301 true)).map fun t => (s, t))).map
      (fun x => ((x.1.calls.isEmpty, x.1.cnt 0, x.1.sends.length), (x.2.calls.isEmpty, x.2.cnt 0, x.2.sends.map (fun y => (y.1, y.2.2.2)))))
    = some ((true, .zero, 1), (true, ⟨1, 2, 0, 0⟩, [(0, true), (0, true)])) := by
    decide +kernel
  obtain ⟨⟨s, t⟩, h1, h2⟩ := Option.map_eq_some_iff.mp h
  simp only [Option.bind_eq_some_iff, Option.map_eq_some_iff, Prod.mk.injEq] at h1
  obtain ⟨s', e1, t', e2, rfl, rfl⟩ := h1
  simp only [Prod.mk.injEq, List.isEmpty_iff] at h2
  obtain ⟨⟨a, b, c⟩, d, e, f⟩ := h2
  exact ⟨s', t', e1, e2, sample_proper _ (by decide +kernel), b, by simp [Calm, a], by simp [Calm, d], c, f, e⟩

/-- A refused message is counted as sent: with three messages accepted, the counter is 4. -/
theorem C102_violated_refused : ∃ (as : List (Act Net.sample)) (s : St Net.sample), Spec.Stat.Proper Net.sample as ∧ run Net.sample (init Net.sample) as = some s ∧
    Calm s 0 ∧ Net.drained Net.sample s.net 1 ∧ s.cnt 0 = ⟨4, 8, 0, 0⟩ ∧ Spec.Stat.accepted s 0 = [2, 2, 2] ∧ (s.cnt 1).nrecv = 3 := by
  have h : (run Net.sample (init Net.sample) (sampleRun true)).map (fun s => ((((s.net.conn 0).sendq.isEmpty && (s.net.conn 1).arrived == (s.net.conn 0).sent && (s.net.conn 1).sock.isEmpty &&
      (s.net.conn 1).readOn && !(s.net.conn 1).poll && !(s.net.conn 1).killed && (s.net.pend 1).isEmpty && Disp.atRest (s.net.disp 1)), s.calls.isEmpty), s.cnt 0, Spec.Stat.accepted s 0, (s.cnt 1).nrecv))
    = some ((true, true), ⟨4, 8, 0, 0⟩, [2, 2, 2], 3) := by
    decide +kernel
  obtain ⟨s, h1, h2⟩ := Option.map_eq_some_iff.mp h
  simp only [Prod.mk.injEq, Bool.and_eq_true, List.isEmpty_iff, beq_iff_eq, Bool.not_eq_true'] at h2
  obtain ⟨⟨⟨⟨⟨⟨⟨⟨⟨a1, a2⟩, a3⟩, a4⟩, a5⟩, a6⟩, a7⟩, a8⟩, a9⟩, a10, a11, a12⟩ := h2
  exact ⟨_, s, sample_proper _ (by decide +kernel), h1, by simp [Calm, a9], ⟨a1, a2, a3, a4, a5, a6, a7, a8⟩, a10, a11, a12⟩

/-- clear_msgstat between the two counters of a message: no message, but two bytes. -/
theorem C102_violated_clear : ∃ (as : List (Act Net.sample)) (s : St Net.sample), Spec.Stat.Proper Net.sample as ∧ run Net.sample (init Net.sample) as = some s ∧
    Calm s 0 ∧ s.cnt 0 = ⟨0, 2, 0, 0⟩ ∧ Spec.Stat.accepted s 0 = [2] := by
  have h : (run Net.sample (init Net.sample) ([.call 0 5 300, .count 0] ++ clear 0 ++ [.count 0, .write 0 true])).map (fun s => (s.calls.isEmpty, s.cnt 0, Spec.Stat.accepted s 0))
    = some (true, ⟨0, 2, 0, 0⟩, [2]) := by
    decide +kernel
  obtain ⟨s, h1, h2⟩ := Option.map_eq_some_iff.mp h
  simp only [Prod.mk.injEq, List.isEmpty_iff] at h2
  exact ⟨_, s, sample_proper _ (by decide +kernel), h1, by simp [Calm, h2.1], h2.2⟩

/-- C102 does not hold. -/
theorem C102_violated : ¬ C102_statement := by
  intro h
  obtain ⟨as, s, h1, h2, h3, _, h5, h6, _⟩ := C102_violated_refused
  obtain ⟨⟨k, hk, _⟩, _⟩ := h _ _ as s h1 h2 0 h3
  rw [h5, h6, List.length_drop] at hk
  have := congrArg BitVec.toNat hk
  rw [BitVec.toNat_ofNat] at this
  simp at this
  omega

end Salticidae
