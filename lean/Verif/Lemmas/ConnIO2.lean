import Verif.Lemmas.ConnIO
namespace Salticidae.ConnIO

/-! consequences of the invariant -/

theorem not_over {cfg : Cfg} {c : St cfg.ow} (h : Core cfg c)
    (ho : Spec.oversized (rule cfg) c.arrived = false) : c.over = false := by
  cases hc : c.over with
  | false => rfl
  | true =>
    obtain ⟨p, hh⟩ := h.histOver hc
    obtain ⟨hb, more, h1, h2, h3⟩ := hh.bytes
    simp only [Spec.oversized, rule] at ho
    rw [h1, Spec.split_encs p hh.valid] at ho
    rw [Spec.split] at ho
    have : Spec.frameLen cfg.ow (hb ++ more) = Spec.frameLen cfg.ow hb := by
      simp only [Spec.frameLen]
      rw [List.drop_append_of_le_length (by omega), List.take_append_of_le_length (by simp; omega)]
    rw [if_neg (by simp; omega), if_pos (by omega)] at ho
    cases ho

theorem messages_eq {cfg : Cfg} {c : St cfg.ow} (h : Core cfg c) (ho : c.over = false) :
    Spec.messages (rule cfg) c.arrived
      = frames cfg c ++ (if c.sleep then [view cfg.e c.msg] else []) ++
        Spec.messages (rule cfg) (held cfg c ++ c.sock) := by
  obtain ⟨p, hh⟩ := h.hist ho
  have hs := Spec.split_encs p hh.valid (held cfg c ++ c.sock)
  rw [← hh.bytes] at hs
  unfold Spec.messages
  rw [show (rule cfg).ow = cfg.ow from rfl, show (rule cfg).max = cfg.maxMsg from rfl, hs,
    List.filter_append, hh.deliv]

theorem messages_over {cfg : Cfg} {c : St cfg.ow} (h : Core cfg c) (ho : c.over = true) :
    Spec.messages (rule cfg) c.arrived <+: frames cfg c := by
  obtain ⟨p, hh⟩ := h.histOver ho
  obtain ⟨hb, more, h1, h2, h3⟩ := hh.bytes
  have hs := Spec.split_encs p hh.valid (hb ++ more)
  rw [← h1] at hs
  have hz : (Spec.split cfg.ow cfg.maxMsg (hb ++ more)).1 = [] := by
    rw [Spec.split]
    have : Spec.frameLen cfg.ow (hb ++ more) = Spec.frameLen cfg.ow hb := by
      simp only [Spec.frameLen]
      rw [List.drop_append_of_le_length (by omega), List.take_append_of_le_length (by simp; omega)]
    rw [if_neg (by simp; omega), if_pos (by omega)]
  simp only [Spec.messages, rule]
  rw [hs, hz, List.append_nil]
  exact hh.deliv

theorem brk_unclean {cfg : Cfg} {c : St cfg.ow} (h : Core cfg c) (ho : c.over = false)
    (hc : Spec.clean (rule cfg) c.arrived = true) : c.brk = false := by
  cases hb : c.brk with
  | false => rfl
  | true =>
    obtain ⟨p, hh⟩ := h.hist ho
    obtain ⟨f, hf, hg⟩ := hh.brk hb
    have hs := Spec.split_encs p hh.valid (held cfg c ++ c.sock)
    rw [← hh.bytes] at hs
    simp only [Spec.clean, rule, List.all_eq_true] at hs hc
    rw [hs] at hc
    have := hc f (by simp [hf])
    simp only [goodF, rule] at hg
    rw [this] at hg; cases hg

/-- Everything complete has been delivered. -/
theorem all_delivered {cfg : Cfg} {c : St cfg.ow} (h : Inv cfg c) (ho : c.over = false)
    (hs : c.sleep = false) (hk : c.killed = false) (hr : c.readyRecv = false) (hb : c.brk = false)
    (hsock : c.sock = []) : frames cfg c = Spec.messages (rule cfg) c.arrived ∧
      Spec.messages (rule cfg) (held cfg c) = [] := by
  have hp := h.parsed
  simp only [ho, hs, hk, hr, hb, Bool.false_eq_true, false_or] at hp
  have hz : Spec.messages (rule cfg) (held cfg c) = [] := by simp [Spec.messages, rule, hp]
  refine ⟨?_, hz⟩
  rw [messages_eq h.core ho, hs, hsock, List.append_nil, hz]; simp

/-! a queue with room never makes a connection sleep -/

theorem parsePayload_room {cfg : Cfg} {q : Nat → Bool} (hq : ∀ i, q i = true) (c : St cfg.ow)
    (hs : c.sleep = false) : (parsePayload cfg q c).1.sleep = false := by
  unfold parsePayload
  simp only [hq, if_true]
  split
  · exact hs
  · split <;> exact hs

theorem parseIter_room {cfg : Cfg} {q : Nat → Bool} (hq : ∀ i, q i = true) (c : St cfg.ow)
    (hs : c.sleep = false) : (parseIter cfg q c).1.sleep = false := by
  unfold parseIter
  split
  · exact parsePayload_room hq c hs
  · split
    · exact hs
    · simp only
      split
      · exact hs
      · split
        · exact hs
        · exact parsePayload_room hq _ hs

theorem parseLoop_room {cfg : Cfg} {q : Nat → Bool} (hq : ∀ i, q i = true) (fuel : Nat) (c : St cfg.ow)
    (hs : c.sleep = false) : (parseLoop cfg q fuel c).1.sleep = false := by
  induction fuel generalizing c with
  | zero => exact hs
  | succ fuel ih =>
    unfold parseLoop
    have := parseIter_room hq c hs
    rcases hr : parseIter cfg q c with ⟨c', o⟩
    rw [hr] at this
    cases o with
    | none => exact ih c' this
    | some x => exact this

theorem onReadLoop_room {cfg : Cfg} {q : Nat → Bool} (hq : ∀ i, q i = true) (c : St cfg.ow)
    (hs : c.sleep = false) : (onReadLoop cfg q c).1.st.sleep = false := by
  unfold onReadLoop
  rw [if_neg (by simp [hs])]
  have := parseLoop_room hq (bufBytes c + 2) { c with brk := false } hs
  generalize parseLoop cfg q (bufBytes c + 2) { c with brk := false } = r at this
  rcases r with ⟨c', o⟩
  split
  · rename_i h; cases h; exact this
  · rename_i h; cases h; exact this
  · rename_i h1 h2 h; cases h; exact this

theorem recvLoop_sleep (cfg : Cfg) (fuel : Nat) (ks : List Nat) (c : St ow) :
    (recvLoop cfg fuel ks c).1.sleep = c.sleep := by
  induction fuel generalizing ks c with
  | zero => rfl
  | succ fuel ih =>
    unfold recvLoop
    split
    · rfl
    · split
      · rfl
      split
      · split <;> rfl
      · simp only
        split
        · rw [ih]
        · rfl

theorem recvData_room {cfg : Cfg} {q : Nat → Bool} (hq : ∀ i, q i = true) (ks : List Nat) (c : St cfg.ow)
    (hs : c.sleep = false) : (recvData cfg q ks c).st.sleep = false := by
  unfold recvData
  have := recvLoop_sleep cfg (cfg.maxSegs + 1) ks c
  rcases hr : recvLoop cfg (cfg.maxSegs + 1) ks c with ⟨c', o⟩
  rw [hr] at this
  simp only at this
  cases o with
  | stop => exact onReadLoop_room hq _ (by simp [this, hs])
  | full => simp [Cb.st, this, hs]
  | eof => simp [Cb.st, this, hs]

theorem sendLoop_sleep (rs : List SendRes) (c : St ow) (l : List (List Byte)) :
    (sendLoop rs c l).sleep = c.sleep := by
  have := (sendLoop_spec rs c l).keep
  rw [this]

theorem step_room {cfg : Cfg} {q : Nat → Bool} (hq : ∀ i, q i = true) {c : St cfg.ow} (h : Inv cfg c)
    (hs : c.sleep = false) (ev : Ev) : (step cfg q c ev).sleep = false := by
  unfold step
  split
  · exact hs
  cases ev with
  | arrive bs => simp only; split <;> exact hs
  | peerClose => exact hs
  | activate => simp only; split <;> exact hs
  | readable ks =>
    simp only
    split
    · have := recvData_room hq ks c hs
      revert this
      cases recvData cfg q ks c <;> exact id
    · exact hs
  | poll ks =>
    simp only
    split
    · rename_i hc
      have := h.pollSleep (by simpa using hc.2)
      rw [hc.1, hs] at this; cases this
    · exact hs
  | write d a => simp only; split <;> exact hs
  | notified rs =>
    simp only
    split
    · split
      · rw [sendData, sendLoop_sleep]; exact hs
      · exact hs
    · exact hs
  | writable rs =>
    simp only
    split
    · rw [sendData, sendLoop_sleep]; exact hs
    · exact hs
  | sockError => simp only; split <;> exact hs
  | teardown => simp only; split <;> exact hs

theorem run_room {cfg : Cfg} (ok : cfg.Ok) {q : Nat → Bool} (hq : ∀ i, q i = true) (evs : List Ev)
    {c : St cfg.ow} (h : Inv cfg c) (hs : c.sleep = false) : (run cfg q c evs).sleep = false := by
  induction evs generalizing c with
  | nil => exact hs
  | cons ev evs ih => exact ih (inv_step ok q h ev) (step_room hq h hs ev)

/-! a stuck connection stays stuck -/

/-- Reading is masked with no retry pending. -/
def Stuck (c : St ow) : Prop :=
  c.active = true ∧ c.readyRecv = true ∧ c.readOn = false ∧ c.poll = false

theorem stuck_send {c : St ow} (h : Stuck c) (rs : List SendRes) (l : List (List Byte)) :
    Stuck (sendLoop rs c l) ∧ (sendLoop rs c l).delivered = c.delivered := by
  induction l generalizing rs c with
  | nil => simp only [sendLoop]; exact ⟨⟨h.1, h.2.1, by simp [h.2.1], h.2.2.2⟩, trivial⟩
  | cons s l ih =>
    unfold sendLoop
    split
    · exact ⟨⟨h.1, h.2.1, by simp [h.2.1], h.2.2.2⟩, rfl⟩
    · split
      · exact ⟨h, rfl⟩
      · exact ⟨h, rfl⟩
      · exact ⟨h, rfl⟩
      · split
        · exact ih (c := { c with sent := c.sent ++ s }) h _
        · split
          · exact ⟨h, rfl⟩
          · exact ⟨h, rfl⟩

theorem stuck_step {cfg : Cfg} (q : Nat → Bool) {c : St cfg.ow} (h : Stuck c) (ev : Ev) :
    Stuck (step cfg q c ev) ∧ (step cfg q c ev).delivered = c.delivered := by
  unfold step
  split
  · exact ⟨h, rfl⟩
  cases ev with
  | arrive bs => simp only; split <;> exact ⟨h, rfl⟩
  | peerClose => exact ⟨h, rfl⟩
  | activate => simp only; rw [if_pos (Or.inr h.1)]; exact ⟨h, rfl⟩
  | readable ks => simp only [h.2.2.1]; exact ⟨h, rfl⟩
  | poll ks => simp only [h.2.2.2]; exact ⟨h, rfl⟩
  | write d a => simp only; split <;> exact ⟨h, rfl⟩
  | notified rs =>
    simp only
    split
    · split
      · exact stuck_send (c := { c with notif := false, readOn := !c.readyRecv, writeOn := true })
          ⟨h.1, h.2.1, by simp [h.2.1], h.2.2.2⟩ rs _
      · exact ⟨h, rfl⟩
    · exact ⟨h, rfl⟩
  | writable rs =>
    simp only
    split
    · exact stuck_send h rs _
    · exact ⟨h, rfl⟩
  | sockError => simp only; split <;> exact ⟨h, rfl⟩
  | teardown =>
    simp only
    split
    · exact ⟨h, rfl⟩
    · exact ⟨⟨h.1, h.2.1, rfl, rfl⟩, rfl⟩

theorem stuck_run {cfg : Cfg} (q : Nat → Bool) (evs : List Ev) {c : St cfg.ow} (h : Stuck c) :
    (run cfg q c evs).delivered = c.delivered := by
  induction evs generalizing c with
  | nil => rfl
  | cons ev evs ih =>
    obtain ⟨h1, h2⟩ := stuck_step q h ev
    exact (ih h1).trans h2

/-! the send side without empty writes -/

/-- With unsent data somebody is going to send it. -/
def SendOk (c : St ow) : Prop :=
  (∀ s ∈ c.sendq, s ≠ []) ∧
  (c.closed = true ∨ c.killed = true ∨ c.readySend = false ∨ c.sendq = [] ∨ c.notif = true)

/-- The event writes no empty data. -/
def Ev.NonEmpty : Ev → Prop
  | .write d _ => d ≠ []
  | _ => True

theorem sendOk_keep {c d : St ow} (h : SendOk c) (e1 : d.sendq = c.sendq) (e2 : d.closed = c.closed)
    (e3 : c.killed = true → d.killed = true) (e4 : d.readySend = c.readySend) (e5 : d.notif = c.notif) :
    SendOk d := by
  unfold SendOk
  rw [e1, e2, e4, e5]
  exact ⟨h.1, h.2.imp id (Or.imp e3 id)⟩

theorem sendOk_send {c : St ow} (h : SendOk c) (c0 : St ow) (rs : List SendRes) (hq : c0.sendq = c.sendq) :
    SendOk (sendLoop rs c0 c0.sendq) := by
  have hs := (sendLoop_spec rs c0 c0.sendq).flush (by rw [hq]; exact h.1)
  refine ⟨hs.1, ?_⟩
  rcases hs.2 with h | h | h
  · exact Or.inr (Or.inl h)
  · exact Or.inr (Or.inr (Or.inl h))
  · exact Or.inr (Or.inr (Or.inr (Or.inl h)))

theorem sendOk_step {cfg : Cfg} (ok : cfg.Ok) (q : Nat → Bool) {c : St cfg.ow} (hi : Inv cfg c)
    (h : SendOk c) (ev : Ev) (hev : ev.NonEmpty) : SendOk (step cfg q c ev) := by
  unfold step
  split
  · exact h
  cases ev with
  | arrive bs => simp only; split <;> exact h
  | peerClose => exact h
  | activate => simp only; split <;> exact h
  | readable ks =>
    simp only
    split
    · rename_i hc
      have hcl : c.closed = false := by simpa using hc.2
      have ha : c.active = true := by
        cases hh : c.active with
        | true => rfl
        | false => have := (hi.inactive hh).1; rw [hc.1] at this; cases this
      have hr := recvData_spec ok q ks hi.core (hi.pollSleep hcl) hc.1 (by
        rcases hi.mask ha with h | h | h
        · rw [hcl] at h; cases h
        · exact Or.inl h
        · exact Or.inr h.2)
      have k := hr.keep
      have hk := hr.killed
      generalize recvData cfg q ks c = r at *
      cases r with
      | ok s =>
        simp only [Cb.st] at k hk
        exact sendOk_keep h (by simp only [caught]; rw [k]) (by simp only [caught]; rw [k]) hk
          (by simp only [caught]; rw [k]) (by simp only [caught]; rw [k])
      | throw s =>
        simp only [Cb.st] at k hk
        exact sendOk_keep h (by simp only [caught]; rw [k]) (by simp only [caught]; rw [k])
          (by simp [caught]) (by simp only [caught]; rw [k]) (by simp only [caught]; rw [k])
    · exact h
  | poll ks =>
    simp only
    split
    · rename_i hc
      have hcl : c.closed = false := by simpa using hc.2
      split
      · rename_i hq
        have hsl : c.sleep = true := by rw [← hi.pollSleep hcl]; exact hc.1
        have ha : c.active = true := by
          cases hh : c.active with
          | true => rfl
          | false => have := (hi.inactive hh).2.2.2.2.1; rw [hsl] at this; cases this
        have hcore := hi.core
        have hm : c.killed = true ∨ MaskOk c := by
          rcases hi.mask ha with h | h | h
          · rw [hcl] at h; cases h
          · exact Or.inl h
          · exact Or.inr h
        have hr := onRead_spec ok q ks (core_poll hcore hsl) rfl hm
        have k := hr.keep
        have hk := hr.killed
        generalize onRead cfg q ks _ = r at *
        cases r with
        | ok s =>
          simp only [Cb.st] at k hk
          exact sendOk_keep h (by simp only [uncaught]; rw [k]) (by simp only [uncaught]; rw [k]) hk
            (by simp only [uncaught]; rw [k]) (by simp only [uncaught]; rw [k])
        | throw s =>
          simp only [Cb.st] at k hk
          exact sendOk_keep h (by simp only [uncaught]; rw [k]) (by simp only [uncaught]; rw [k])
            hk (by simp only [uncaught]; rw [k]) (by simp only [uncaught]; rw [k])
      · exact h
    · exact h
  | write d a =>
    simp only
    split
    · refine ⟨?_, by simp⟩
      intro s hs
      simp only [List.mem_append, List.mem_singleton] at hs
      rcases hs with hs | rfl
      · exact h.1 s hs
      · exact hev
    · exact h
  | notified rs =>
    simp only
    split
    · split
      · exact sendOk_send h _ rs rfl
      · rename_i hn
        refine ⟨h.1, ?_⟩
        right; right; left
        simpa using hn
    · exact h
  | writable rs =>
    simp only
    split
    · exact sendOk_send h c rs rfl
    · exact h
  | sockError => simp only; split; exact ⟨h.1, by simp⟩; exact h
  | teardown => simp only; split; exact h; exact ⟨h.1, by simp⟩

theorem sendOk_run {cfg : Cfg} (ok : cfg.Ok) (q : Nat → Bool) (evs : List Ev) {c : St cfg.ow}
    (hi : Inv cfg c) (h : SendOk c) (hev : ∀ e ∈ evs, e.NonEmpty) : SendOk (run cfg q c evs) := by
  induction evs generalizing c with
  | nil => exact h
  | cons ev evs ih =>
    exact ih (inv_step ok q hi ev) (sendOk_step ok q hi h ev (hev ev (by simp)))
      (fun e he => hev e (by simp [he]))

/-- A kernel that takes everything empties the queue. -/
theorem send_flush (c : St ow) (l : List (List Byte)) (h : ∀ s ∈ l, s ≠ []) :
    (sendLoop (l.map fun s => .sent s.length) c l).sent = c.sent ++ l.flatten ∧
    (sendLoop (l.map fun s => .sent s.length) c l).sendq = [] := by
  induction l generalizing c with
  | nil => simp [sendLoop]
  | cons s l ih =>
    rw [List.map_cons, sendLoop, if_neg (h s (by simp))]
    simp only [Nat.le_refl, if_true, ge_iff_le]
    have := ih { c with sent := c.sent ++ s } (fun x hx => h x (by simp [hx]))
    rw [this.1, this.2]; simp

/-- A kernel that takes at least one byte makes progress. -/
theorem send_progress (c : St ow) (s : List Byte) (l : List (List Byte)) (hs : s ≠ []) (n : Nat)
    (hn : 0 < n) (rs : List SendRes) : c.sent.length < (sendLoop (.sent n :: rs) c (s :: l)).sent.length := by
  have hl : 0 < s.length := List.length_pos_iff.mpr hs
  have mono : ∀ (rs : List SendRes) (c : St ow) (l : List (List Byte)),
      c.sent.length ≤ (sendLoop rs c l).sent.length := by
    intro rs c l
    induction l generalizing rs c with
    | nil => simp [sendLoop]
    | cons s l ih =>
      unfold sendLoop
      split
      · simp
      · split
        · simp
        · simp
        · simp
        · split
          · rename_i n rs _
            have := ih rs { c with sent := c.sent ++ s }
            simp only [List.length_append] at this; omega
          · split <;> simp
  rw [sendLoop, if_neg hs]
  split
  · have := mono rs { c with sent := c.sent ++ s } l
    simp only [List.length_append] at this; omega
  · rw [if_neg (by omega)]
    simp only [List.length_append, List.length_take]; omega

/-! bookkeeping of the written bytes -/

/-- The bytes an event hands over to be sent. -/
def Ev.bytes : Ev → List Byte
  | .write d true => d
  | _ => []

theorem written_step {cfg : Cfg} (ok : cfg.Ok) (q : Nat → Bool) {c : St cfg.ow} (hi : Inv cfg c) (ev : Ev)
    (hn : (step cfg q c ev).crashed = false) :
    c.crashed = false ∧ (step cfg q c ev).written = c.written ++ ev.bytes := by
  cases hcr : c.crashed with
  | true => simp [step, hcr] at hn
  | false =>
  refine ⟨rfl, ?_⟩
  clear hn
  unfold step
  rw [if_neg (by simp [hcr])]
  cases ev with
  | arrive bs => simp only; split <;> simp [Ev.bytes]
  | peerClose => simp [Ev.bytes]
  | activate => simp only; split <;> simp [Ev.bytes]
  | readable ks =>
    simp only [Ev.bytes, List.append_nil]
    split
    · rename_i hc
      have hcl : c.closed = false := by simpa using hc.2
      have ha : c.active = true := by
        cases hh : c.active with
        | true => rfl
        | false => have := (hi.inactive hh).1; rw [hc.1] at this; cases this
      have hr := recvData_spec ok q ks hi.core (hi.pollSleep hcl) hc.1 (by
        rcases hi.mask ha with h | h | h
        · rw [hcl] at h; cases h
        · exact Or.inl h
        · exact Or.inr h.2)
      have k := hr.keep
      generalize recvData cfg q ks c = r at *
      cases r <;> (simp only [Cb.st] at k; simp only [caught]; rw [k])
    · rfl
  | poll ks =>
    simp only [Ev.bytes, List.append_nil]
    split
    · rename_i hc
      have hcl : c.closed = false := by simpa using hc.2
      split
      · have hsl : c.sleep = true := by rw [← hi.pollSleep hcl]; exact hc.1
        have ha : c.active = true := by
          cases hh : c.active with
          | true => rfl
          | false => have := (hi.inactive hh).2.2.2.2.1; rw [hsl] at this; cases this
        have hm : c.killed = true ∨ MaskOk c := by
          rcases hi.mask ha with h | h | h
          · rw [hcl] at h; cases h
          · exact Or.inl h
          · exact Or.inr h
        have hr := onRead_spec ok q ks (core_poll hi.core hsl) rfl hm
        have k := hr.keep
        generalize onRead cfg q ks _ = r at *
        cases r <;> (simp only [Cb.st] at k; simp only [uncaught]; rw [k])
      · rfl
    · rfl
  | write d a => cases a <;> simp [Ev.bytes]
  | notified rs =>
    simp only [Ev.bytes, List.append_nil]
    split
    · split
      · rw [sendData, (sendLoop_spec rs _ _).keep]
      · rfl
    · rfl
  | writable rs =>
    simp only [Ev.bytes, List.append_nil]
    split
    · rw [sendData, (sendLoop_spec rs _ _).keep]
    · rfl
  | sockError => simp only [Ev.bytes, List.append_nil]; split <;> rfl
  | teardown => simp only [Ev.bytes, List.append_nil]; split <;> rfl

theorem written_run {cfg : Cfg} (ok : cfg.Ok) (q : Nat → Bool) (evs : List Ev) {c : St cfg.ow}
    (hi : Inv cfg c) (hn : (run cfg q c evs).crashed = false) :
    (run cfg q c evs).written = c.written ++ evs.flatMap Ev.bytes := by
  induction evs generalizing c with
  | nil => simp [run]
  | cons ev evs ih =>
    have h1 := ih (inv_step ok q hi ev) hn
    have hc : (step cfg q c ev).crashed = false := by
      cases h : (step cfg q c ev).crashed with
      | false => rfl
      | true =>
        have : ∀ (evs : List Ev) (d : St cfg.ow), d.crashed = true → (run cfg q d evs).crashed = true := by
          intro evs
          induction evs with
          | nil => intro d h; exact h
          | cons e evs ih => intro d h; exact ih _ (by simp [step, h])
        have := this evs _ h
        simp only [run, List.foldl_cons] at hn this
        rw [this] at hn; cases hn
    have h2 := (written_step ok q hi ev hc).2
    simp only [run, List.foldl_cons, List.flatMap_cons] at h1 ⊢
    rw [h1, h2, List.append_assoc]

end Salticidae.ConnIO
