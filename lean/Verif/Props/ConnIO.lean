import Verif.Lemmas.ConnIO2
/-
Property theorems for receiving and sending on one connection (C22-C32).

`run cfg q (init m0) evs` is any history of a connection: any interleaving of arriving data, socket
readability and writability callbacks, kernel results, queue answers, retry timers, writes, and
teardown.  `c.arrived` are the bytes that reached the socket, `frames cfg c` the messages accepted by
the message queue, `c.written` the bytes given to `write`, `c.sent` the bytes taken by the kernel.
`Spec.messages` (Spec/Frames.lean) says which messages a byte stream stands for.
-/
namespace Salticidae
open ConnIO

/-! ### a small concrete network for the examples and witnesses -/
namespace ConnIO.Demo

/-- Little-endian host, one-byte opcodes, a hash that is always zero. -/
def cfg (maxMsg chunk maxSegs : Nat) : Cfg := ⟨.little, 1, fun _ => [0, 0, 0, 0], maxMsg, chunk, maxSegs⟩

def m0 : Msg 1 := Msg.fresh 0 0 0

/-- A well-formed message with payload `[x]` (14 bytes on the wire). -/
def good (x : Byte) : Spec.Frame := ⟨0, [7], 0, [x]⟩

/-- The same with a wrong checksum. -/
def bad (x : Byte) : Spec.Frame := ⟨0, [7], 1, [x]⟩

/-- A queue that always has room. -/
def room : Nat → Bool := fun _ => true

theorem good_valid (x : Byte) {k : Nat} (h : 1 ≤ k) : (good x).Valid 1 k := by
  simpa [good, Spec.Frame.Valid] using h

theorem bad_valid (x : Byte) {k : Nat} (h : 1 ≤ k) : (bad x).Valid 1 k := by
  simpa [bad, Spec.Frame.Valid] using h

end ConnIO.Demo
open ConnIO.Demo

/-! ### receiving -/

/-- C22.  Let the peer send well-formed messages `ms` followed by `tail` (less than one more
message), in whatever pieces and with whatever callbacks in between, to a connection whose message
queue has room.  Whenever the socket has been drained, reading is enabled and no termination is under
way, exactly `ms` have been delivered, once each and in order, and the connection holds back exactly
`tail`. -/
theorem C22_chunking (cfg : Cfg) (ok : cfg.Ok) (q : Nat → Bool) (hq : ∀ i, q i = true)
    (m0 : Msg cfg.ow) (evs : List Ev) (ms : List Spec.Frame) (tail : List Byte)
    (hv : ∀ f ∈ ms, f.Valid cfg.ow cfg.maxMsg ∧ (rule cfg).good f.checksum f.payload = true)
    (ht : Spec.split cfg.ow cfg.maxMsg tail = ([], false)) :
    let c := run cfg q (init m0) evs
    c.arrived = ms.flatMap Spec.Frame.enc ++ tail → c.sock = [] → c.readOn = true →
    c.killed = false → frames cfg c = ms ∧ held cfg c = tail := by
  intro c ha hs hr hk
  have hi : Inv cfg c := inv_run ok q evs (inv_init cfg m0)
  have hsp := Spec.split_encs ms (fun f hf => (hv f hf).1) tail
  rw [ht, List.append_nil, ← ha] at hsp
  have hmsg : Spec.messages (rule cfg) c.arrived = ms := by
    unfold Spec.messages
    rw [show (rule cfg).ow = cfg.ow from rfl, show (rule cfg).max = cfg.maxMsg from rfl, hsp]
    exact List.filter_eq_self.mpr fun f hf => (hv f hf).2
  have hcl : Spec.clean (rule cfg) c.arrived = true := by
    unfold Spec.clean
    rw [show (rule cfg).ow = cfg.ow from rfl, show (rule cfg).max = cfg.maxMsg from rfl, hsp]
    exact List.all_eq_true.mpr fun f hf => (hv f hf).2
  have hov : Spec.oversized (rule cfg) c.arrived = false := by
    unfold Spec.oversized
    rw [show (rule cfg).ow = cfg.ow from rfl, show (rule cfg).max = cfg.maxMsg from rfl, hsp]
  have ho := not_over hi.core hov
  have hb := brk_unclean hi.core ho hcl
  have hsl : c.sleep = false := run_room ok hq evs (inv_init cfg m0) rfl
  have hact : c.active = true := by
    cases h : c.active with
    | true => rfl
    | false => have := (hi.inactive h).1; rw [hr] at this; cases this
  have hrr : c.readyRecv = false := by
    rcases hi.mask hact with h | h | h
    · have := (hi.closedOff h).2.1; rw [hr] at this; cases this
    · rw [hk] at h; cases h
    · have := h.1; rw [hr] at this; simpa using this.symm
  obtain ⟨h1, h2⟩ := all_delivered hi ho hsl hk hrr hb hs
  rw [hmsg] at h1
  refine ⟨h1, ?_⟩
  obtain ⟨p, hh⟩ := hi.core.hist ho
  have hpm : p = ms := by
    have hz := hi.parsed
    simp only [ho, hsl, hk, hrr, hb, Bool.false_eq_true, false_or] at hz
    have h3 := Spec.split_encs p hh.valid (held cfg c ++ c.sock)
    rw [← hh.bytes, hsp, hs, List.append_nil, hz] at h3
    simp only [Prod.mk.injEq, List.append_nil] at h3
    exact h3.1.symm
  have h4 := hh.bytes
  rw [hpm, hs, List.append_nil, ha] at h4
  exact (List.append_cancel_left h4).symm

/-- C22 is not vacuous: two messages and three more bytes, arriving in four pieces. -/
example : let bs := (good 1).enc ++ (good 2).enc ++ [9, 9, 9]
    let c := run (cfg 4 8 4) room (init m0) [.activate, .arrive (bs.take 3), .readable [],
      .arrive ((bs.drop 3).take 12), .readable [5], .readable [], .arrive ((bs.drop 15).take 2),
      .readable [], .arrive (bs.drop 17), .readable []]
    c.arrived = [good 1, good 2].flatMap Spec.Frame.enc ++ [9, 9, 9] ∧ c.sock = [] ∧ c.readOn = true ∧
    c.killed = false ∧ frames (cfg 4 8 4) c = [good 1, good 2] ∧ held (cfg 4 8 4) c = [9, 9, 9] := by
  decide

/-- C22, progress: a readability callback on a live connection with data in the socket takes at least
one byte out of the socket, or finds the receive buffer at its limit (unless the first recv fails). -/
theorem C22_read_progress (cfg : Cfg) (ok : cfg.Ok) (q : Nat → Bool) (m0 : Msg cfg.ow) (evs : List Ev)
    (ks : List Nat) :
    let c := run cfg q (init m0) evs
    c.sock ≠ [] → c.readOn = true → c.crashed = false → c.buf.len < cfg.maxSegs → ks.head? ≠ some 0 →
    (step cfg q c (.readable ks)).sock.length < c.sock.length := by
  intro c hs hr hcr hb hks
  have hi : Inv cfg c := inv_run ok q evs (inv_init cfg m0)
  have hcl : c.closed = false := by
    cases h : c.closed with
    | false => rfl
    | true => have := (hi.closedOff h).2.1; rw [hr] at this; cases this
  have mono : ∀ (fuel : Nat) (ks : List Nat) (c : St cfg.ow),
      (recvLoop cfg fuel ks c).1.sock.length ≤ c.sock.length := by
    intro fuel
    induction fuel with
    | zero => intro ks c; exact Nat.le_refl _
    | succ fuel ih =>
      intro ks c
      unfold recvLoop
      split
      · exact Nat.le_refl _
      · split
        · exact Nat.le_refl _
        split
        · split <;> exact Nat.le_refl _
        · simp only
          split
          · refine Nat.le_trans (ih _ _) ?_
            simp only [List.length_drop]; omega
          · simp only [List.length_drop]; omega
  have hlt : (recvLoop cfg (cfg.maxSegs + 1) ks c).1.sock.length < c.sock.length := by
    have hp : 0 < c.sock.length := List.length_pos_iff.mpr hs
    unfold recvLoop
    have hk0 : ks.headD cfg.chunk ≠ 0 := by
      have := ok.1
      cases ks with
      | nil => simp; omega
      | cons k ks => simpa using hks
    rw [if_neg (by omega), if_neg hk0, if_neg hs]
    simp only
    have h1 : 0 < recvLen cfg c.sock.length (ks.headD cfg.chunk) := by simp only [recvLen]; omega
    split
    · refine Nat.lt_of_le_of_lt (mono _ _ _) ?_
      simp only [List.length_drop]; omega
    · simp only [List.length_drop]; omega
  have hrd : (recvData cfg q ks c).st.sock = (recvLoop cfg (cfg.maxSegs + 1) ks c).1.sock := by
    have h1 := recvLoop_spec ok (cfg.maxSegs + 1) ks hi.core (by omega)
    unfold recvData
    rcases hl : recvLoop cfg (cfg.maxSegs + 1) ks c with ⟨c', e⟩
    rw [hl] at h1
    cases e with
    | full => rfl
    | eof => rfl
    | stop =>
      have h2 := (onReadLoop_spec (c := { c' with readyRecv := false }) ok q (h1.core.congr rfl)).keep
      simp only
      rw [h2]
  have : (step cfg q c (.readable ks)).sock = (recvData cfg q ks c).st.sock := by
    simp only [step, hcr, hr, hcl, Bool.false_eq_true, if_false, not_false_eq_true, and_self, if_true]
    cases recvData cfg q ks c <;> rfl
  rw [this, hrd]
  exact hlt

/-- C23.  In every history without an oversized header, the messages that arrived are: those
delivered so far, then at most one waiting for room in the queue, then those of the bytes still in
the connection or the socket.  In particular the delivered messages are a prefix of the messages of
the byte stream, for all refusals of the queue. -/
theorem C23_backpressure (cfg : Cfg) (ok : cfg.Ok) (q : Nat → Bool) (m0 : Msg cfg.ow) (evs : List Ev) :
    let c := run cfg q (init m0) evs
    Spec.oversized (rule cfg) c.arrived = false →
    (∃ waiting : List Spec.Frame, waiting.length ≤ 1 ∧
      (waiting ≠ [] → c.closed = false → c.poll = true) ∧
      Spec.messages (rule cfg) c.arrived
        = frames cfg c ++ waiting ++ Spec.messages (rule cfg) (held cfg c ++ c.sock)) ∧
    frames cfg c <+: Spec.messages (rule cfg) c.arrived := by
  intro c hov
  have hi : Inv cfg c := inv_run ok q evs (inv_init cfg m0)
  have h := messages_eq hi.core (not_over hi.core hov)
  refine ⟨⟨if c.sleep then [view cfg.e c.msg] else [], ?_, ?_, h⟩, ?_⟩
  · split <;> simp
  · intro hw hc
    rw [hi.pollSleep hc]
    cases hs : c.sleep with
    | true => rfl
    | false => rw [hs] at hw; exact absurd rfl hw
  · rw [h, List.append_assoc]; exact List.prefix_append _ _

/-- C23 is not vacuous: the queue refuses twice; afterwards both messages are there, in order. -/
example : let q : Nat → Bool := fun i => i ≠ 1 && i ≠ 2
    let c1 := run (cfg 4 64 4) q (init m0) [.activate, .arrive ((good 1).enc ++ (good 2).enc), .readable []]
    let c2 := run (cfg 4 64 4) q c1 [.poll [], .poll []]
    frames (cfg 4 64 4) c1 = [good 1] ∧ c1.poll = true ∧ frames (cfg 4 64 4) c2 = [good 1, good 2] := by
  decide

/-- The full statement of C24: a drained live connection has delivered all intact messages. -/
def C24_statement : Prop :=
  ∀ (cfg : Cfg) (q : Nat → Bool) (m0 : Msg cfg.ow) (evs : List Ev), cfg.Ok → (∀ i, q i = true) →
    let c := run cfg q (init m0) evs
    Spec.oversized (rule cfg) c.arrived = false → c.sock = [] → c.readOn = true → c.killed = false →
    frames cfg c = Spec.messages (rule cfg) c.arrived

/-- C24 is violated: after a corrupted message the loop is left, so an intact message received in the
same read is not delivered until some later data arrives. -/
theorem C24_violated : ¬ C24_statement := by
  intro h
  have hs := Spec.split_encs (ow := 1) (max := 4) [bad 1, good 2]
    (by intro f hf; simp only [List.mem_cons, List.not_mem_nil, or_false] at hf
        rcases hf with rfl | rfl
        · exact bad_valid 1 (by decide)
        · exact good_valid 2 (by decide)) []
  rw [Spec.split_short (bs := []) (by decide), List.append_nil, List.append_nil] at hs
  have he : (run (cfg 4 64 4) room (init m0)
      [.activate, .arrive ((bad 1).enc ++ (good 2).enc), .readable []]).arrived
      = [bad 1, good 2].flatMap Spec.Frame.enc := by decide
  have := h (cfg 4 64 4) room m0 [.activate, .arrive ((bad 1).enc ++ (good 2).enc), .readable []]
    ⟨by decide, by decide⟩ (fun _ => rfl)
  simp only at this
  rw [he] at this
  unfold Spec.messages Spec.oversized at this
  rw [show (rule (cfg 4 64 4)).ow = 1 from rfl, show (rule (cfg 4 64 4)).max = 4 from rfl, hs] at this
  revert this
  decide

/-- C24, proved part: a corrupted message is never delivered; what is delivered is always a prefix of
the intact messages; and whenever the last parsing loop did not end with dropping a message
(`brk = false`), all intact messages have been delivered, also those after corrupted ones.
Missing: right after dropping a message, intact ones behind it may still be held back. -/
theorem C24_corrupted_partial (cfg : Cfg) (ok : cfg.Ok) (q : Nat → Bool) (hq : ∀ i, q i = true)
    (m0 : Msg cfg.ow) (evs : List Ev) :
    let c := run cfg q (init m0) evs
    (∀ f ∈ frames cfg c, (rule cfg).good f.checksum f.payload = true) ∧
    (Spec.oversized (rule cfg) c.arrived = false →
      frames cfg c <+: Spec.messages (rule cfg) c.arrived ∧
      (c.sock = [] → c.readOn = true → c.killed = false → c.brk = false →
        frames cfg c = Spec.messages (rule cfg) c.arrived)) := by
  intro c
  have hi : Inv cfg c := inv_run ok q evs (inv_init cfg m0)
  refine ⟨?_, fun hov => ⟨(C23_backpressure cfg ok q m0 evs hov).2, ?_⟩⟩
  · intro f hf
    simp only [frames, List.mem_map] at hf
    obtain ⟨m, hm, rfl⟩ := hf
    have := (hi.core.acc m hm).2.2.1
    simp [rule, view, this]
  · intro hs hr hk hb
    have ho := not_over hi.core hov
    have hsl : c.sleep = false := run_room ok hq evs (inv_init cfg m0) rfl
    have hact : c.active = true := by
      cases h : c.active with
      | true => rfl
      | false => have := (hi.inactive h).1; rw [hr] at this; cases this
    have hrr : c.readyRecv = false := by
      rcases hi.mask hact with h | h | h
      · have := (hi.closedOff h).2.1; rw [hr] at this; cases this
      · rw [hk] at h; cases h
      · have := h.1; rw [hr] at this; simpa using this.symm
    exact (all_delivered hi ho hsl hk hrr hb hs).1

/-- A corrupted message between two intact ones: delivered after the next read. -/
example : let c := run (cfg 4 64 4) room (init m0) [.activate,
      .arrive ((good 1).enc ++ (bad 2).enc ++ (good 3).enc), .readable [], .arrive [0], .readable []]
    frames (cfg 4 64 4) c = [good 1, good 3] ∧ c.sock = [] ∧ c.readOn = true ∧ c.killed = false ∧
    c.brk = false := by decide

/-- The full statement of C25: no oversized message is delivered, nothing behind an oversized header
is delivered, and the process survives. -/
def C25_statement : Prop :=
  ∀ (cfg : Cfg) (q : Nat → Bool) (m0 : Msg cfg.ow) (evs : List Ev), cfg.Ok →
    let c := run cfg q (init m0) evs
    (∀ f ∈ frames cfg c, f.payload.length ≤ cfg.maxMsg) ∧
    (frames cfg c).length ≤ (Spec.messages (rule cfg) c.arrived).length ∧
    c.crashed = false

/-- The header of a message announcing 100 bytes. -/
def ConnIO.Demo.bigHeader : List Byte := [0, 0, 0, 0, 7, 100, 0, 0, 0, 0, 0, 0, 0]

theorem ConnIO.Demo.split_big (rest : List Byte) : Spec.split 1 4 (bigHeader ++ rest) = ([], true) := by
  rw [Spec.split]
  have : Spec.frameLen 1 (bigHeader ++ rest) = 100 := by
    simp only [Spec.frameLen, bigHeader]
    rfl
  rw [this, if_neg (by simp [bigHeader]), if_pos (by decide)]

/-- C25 is violated: data behind the oversized header that is still in the socket is read and parsed
before the connection is torn down, and delivered. -/
theorem C25_violated : ¬ C25_statement := by
  intro h
  have := (h (cfg 4 13 4) room m0 [.activate, .arrive (bigHeader ++ (good 1).enc), .readable [12],
    .readable [1], .readable [12], .readable []]
    ⟨by decide, by decide⟩).2.1
  have he : (run (cfg 4 13 4) room (init m0) [.activate, .arrive (bigHeader ++ (good 1).enc),
      .readable [12], .readable [1], .readable [12], .readable []]).arrived
      = bigHeader ++ (good 1).enc := by decide
  rw [he] at this
  unfold Spec.messages at this
  rw [show (rule (cfg 4 13 4)).ow = 1 from rfl, show (rule (cfg 4 13 4)).max = 4 from rfl,
    split_big] at this
  revert this
  decide

/-- C25 is also violated in a second way: when the oversized header is met while retrying after a
refused enqueue, the exception leaves the timer callback and the process terminates. -/
theorem C25_violated_crash :
    let q : Nat → Bool := fun i => i ≠ 0
    (run (cfg 4 64 4) q (init m0) [.activate, .arrive ((good 1).enc ++ bigHeader), .readable [],
      .poll []]).crashed = true := by decide

/-- C25, proved part: no message longer than max_msg_size is ever delivered; and either everything
delivered lies before any oversized header, or an oversized header has been received and the
termination of the connection has been requested (or the process has died); after the teardown
nothing more is delivered.  Missing: the time between the request and the teardown, and the crash. -/
theorem C25_oversized_partial (cfg : Cfg) (ok : cfg.Ok) (q : Nat → Bool) (m0 : Msg cfg.ow)
    (evs : List Ev) :
    let c := run cfg q (init m0) evs
    (∀ f ∈ frames cfg c, f.payload.length ≤ cfg.maxMsg) ∧
    (frames cfg c <+: Spec.messages (rule cfg) c.arrived ∨
      (Spec.messages (rule cfg) c.arrived <+: frames cfg c ∧
        Spec.oversized (rule cfg) c.arrived = true ∧ (c.killed = true ∨ c.crashed = true))) ∧
    (c.closed = true → ∀ ev, frames cfg (step cfg q c ev) = frames cfg c) := by
  intro c
  have hi : Inv cfg c := inv_run ok q evs (inv_init cfg m0)
  refine ⟨?_, ?_, ?_⟩
  · intro f hf
    simp only [frames, List.mem_map] at hf
    obtain ⟨m, hm, rfl⟩ := hf
    exact (hi.core.acc m hm).2.1
  · cases ho : c.over with
    | false =>
      left
      rw [messages_eq hi.core ho, List.append_assoc]; exact List.prefix_append _ _
    | true =>
      right
      refine ⟨messages_over hi.core ho, ?_, hi.overKill ho⟩
      cases hov : Spec.oversized (rule cfg) c.arrived with
      | true => rfl
      | false => have := not_over hi.core hov; rw [ho] at this; cases this
  · intro hc ev
    obtain ⟨h1, h2, h3⟩ := hi.closedOff hc
    unfold step
    split
    · rfl
    · cases ev with
      | arrive bs => simp only; split <;> rfl
      | peerClose => rfl
      | activate => simp [hc]
      | readable ks => simp [hc]
      | poll ks => simp [hc]
      | write d a => simp only; split <;> rfl
      | notified rs => simp [hc]
      | writable rs => simp [hc]
      | sockError => simp [hc]
      | teardown => simp [hc]

example : let c := run (cfg 4 64 4) room (init m0) [.activate, .arrive ((good 1).enc ++ bigHeader),
    .readable [], .teardown, .arrive (good 2).enc, .readable []]
    frames (cfg 4 64 4) c = [good 1] ∧ c.killed = true ∧ c.closed = true := by decide

/-- C26.  Whatever happens, the receive buffer has at most `maxSegs` segments of at most `chunk`
bytes, the byte counter is right, and what is held back in total is at most
`maxSegs * chunk` bytes plus one header. -/
theorem C26_bounded_buffer (cfg : Cfg) (ok : cfg.Ok) (q : Nat → Bool) (m0 : Msg cfg.ow) (evs : List Ev) :
    let c := run cfg q (init m0) evs
    c.buf.len ≤ cfg.maxSegs ∧ c.buf.size ≤ cfg.maxSegs * cfg.chunk ∧
    (held cfg c).length ≤ cfg.maxSegs * cfg.chunk + (12 + cfg.ow) := by
  intro c
  have hi : Inv cfg c := inv_run ok q evs (inv_init cfg m0)
  have h1 := SegBuffer.content_le hi.core.chunk
  have h2 := Nat.mul_le_mul_right cfg.chunk hi.core.segs
  refine ⟨hi.core.segs, by rw [size_eq ok hi.core]; omega, ?_⟩
  rw [held_eq, pending_eq, List.length_append]
  have : (if c.inPayload = true then Msg.headerBytes cfg.e c.msg else []).length ≤ 12 + cfg.ow := by
    split
    · simp [Msg.headerSize]; omega
    · simp
  omega

/-- The bound is reached: with two segments of four bytes allowed, the peer's ten bytes are buffered
only in part. -/
example : let c := run (cfg 4 4 2) room (init m0) [.activate, .arrive [1, 2, 3, 4, 5, 6, 7, 8, 9, 10],
    .readable []]
    c.buf.len = 2 ∧ c.buf.size = 8 ∧ c.sock = [9, 10] ∧ c.readOn = false := by decide

/-- The full statement of C27: with room in the queue, a live connection either is waiting for data
to read or has a retry pending. -/
def C27_statement : Prop :=
  ∀ (cfg : Cfg) (q : Nat → Bool) (m0 : Msg cfg.ow) (evs : List Ev), cfg.Ok → 0 < cfg.maxSegs →
    (∀ i, q i = true) →
    let c := run cfg q (init m0) evs
    c.active = true → c.closed = false → c.killed = false → c.crashed = false →
    c.readOn = true ∨ c.poll = true

/-- C27 is violated: one read callback that fills the buffer with full chunks disables reading and
returns without parsing. -/
theorem C27_violated : ¬ C27_statement := by
  intro h
  have := h (cfg 4 14 2) room m0 [.activate, .arrive ((good 1).enc ++ (good 2).enc), .readable []]
    ⟨by decide, by decide⟩ (by decide) (fun _ => rfl)
  revert this
  decide

/-- C27 violated, for good: in that state two complete messages are in the buffer, and no sequence of
events whatsoever makes the connection deliver anything. -/
theorem C27_violated_forever :
    let c := run (cfg 4 14 2) room (init m0) [.activate, .arrive ((good 1).enc ++ (good 2).enc),
      .readable []]
    held (cfg 4 14 2) c = (good 1).enc ++ (good 2).enc ∧ c.killed = false ∧ c.closed = false ∧
    ∀ (q : Nat → Bool) (evs : List Ev), frames (cfg 4 14 2) (run (cfg 4 14 2) q c evs) = [] := by
  refine ⟨by decide, by decide, by decide, fun q evs => ?_⟩
  simp only [frames]
  rw [stuck_run q evs ⟨by decide, by decide, by decide, by decide⟩]
  decide

/-- C27, proved part: a live connection waits for data, has a retry pending, or has its receive
buffer filled to the limit.  Missing: the last case, where the connection can be stuck. -/
theorem C27_no_stall_partial (cfg : Cfg) (ok : cfg.Ok) (q : Nat → Bool) (m0 : Msg cfg.ow)
    (evs : List Ev) :
    let c := run cfg q (init m0) evs
    c.active = true → c.closed = false → c.killed = false → c.crashed = false →
    c.readOn = true ∨ c.poll = true ∨ c.buf.len = cfg.maxSegs := by
  intro c ha hc hk hcr
  have hi : Inv cfg c := inv_run ok q evs (inv_init cfg m0)
  rcases hi.mask ha with h | h | h
  · rw [hc] at h; cases h
  · rw [hk] at h; cases h
  · cases hr : c.readyRecv with
    | false => left; rw [h.1, hr]; rfl
    | true =>
      right
      rcases hi.full hr with h | h | h | h | h
      · rw [hcr] at h; cases h
      · rw [hc] at h; cases h
      · rw [hk] at h; cases h
      · left; rw [hi.pollSleep hc, h]
      · right; exact Nat.le_antisymm hi.core.segs h

example : let c := run (cfg 4 64 4) room (init m0) [.activate, .arrive (good 1).enc, .readable []]
    c.active = true ∧ c.closed = false ∧ c.killed = false ∧ c.crashed = false ∧ c.readOn = true := by
  decide

/-- The full statement of C28: when a connection ends because the peer closed it (nobody else tore it
down, no send or recv failed, the queue had room, no oversized message), all messages have been delivered. -/
def C28_statement : Prop :=
  ∀ (cfg : Cfg) (q : Nat → Bool) (m0 : Msg cfg.ow) (evs : List Ev), cfg.Ok → (∀ i, q i = true) →
    (∀ ev ∈ evs, ∃ ks bs, 0 ∉ ks ∧
      (ev = .arrive bs ∨ ev = .peerClose ∨ ev = .activate ∨ ev = .readable ks)) →
    let c := run cfg q (init m0) evs
    Spec.oversized (rule cfg) c.arrived = false → Spec.clean (rule cfg) c.arrived = true →
    c.killed = true → frames cfg c = Spec.messages (rule cfg) c.arrived

/-- C28 is violated: if the data is a multiple of the chunk size, the close is noticed in the same
callback and the buffered messages are never parsed. -/
theorem C28_violated : ¬ C28_statement := by
  intro h
  have hs := Spec.split_encs (ow := 1) (max := 4) [good 1]
    (by intro f hf; simp only [List.mem_cons, List.not_mem_nil, or_false] at hf; subst hf
        exact good_valid 1 (by decide)) []
  rw [Spec.split_short (bs := []) (by decide), List.append_nil, List.append_nil] at hs
  have he : (run (cfg 4 14 4) room (init m0)
      [.activate, .arrive (good 1).enc, .peerClose, .readable []]).arrived
      = [good 1].flatMap Spec.Frame.enc := by decide
  have := h (cfg 4 14 4) room m0 [.activate, .arrive (good 1).enc, .peerClose, .readable []]
    ⟨by decide, by decide⟩ (fun _ => rfl)
    (by intro ev hev
        simp only [List.mem_cons, List.not_mem_nil, or_false] at hev
        exact ⟨[], (good 1).enc, by simp, by rcases hev with h | h | h | h <;> simp [h]⟩)
  simp only at this
  rw [he] at this
  unfold Spec.messages Spec.oversized Spec.clean at this
  rw [show (rule (cfg 4 14 4)).ow = 1 from rfl, show (rule (cfg 4 14 4)).max = 4 from rfl, hs] at this
  revert this
  decide

/-- C28, proved part: if the socket had been drained by an earlier callback (reading enabled, nothing
waiting, no message just dropped) before the close is noticed, everything has been delivered, and
stays delivered through close and teardown.  Missing: closes noticed by the callback that also reads
the last data, and messages waiting for the queue at that time. -/
theorem C28_close_partial (cfg : Cfg) (ok : cfg.Ok) (q : Nat → Bool) (m0 : Msg cfg.ow) (evs : List Ev)
    (ks : List Nat) :
    let c := run cfg q (init m0) evs
    Spec.oversized (rule cfg) c.arrived = false → Spec.clean (rule cfg) c.arrived = true →
    c.sock = [] → c.readOn = true → c.killed = false → c.poll = false →
    frames cfg c = Spec.messages (rule cfg) c.arrived ∧
    frames cfg (run cfg q c [.peerClose, .readable ks, .teardown]) =
      Spec.messages (rule cfg) c.arrived := by
  intro c hov hcl hs hr hk hp
  have hi : Inv cfg c := inv_run ok q evs (inv_init cfg m0)
  have ho := not_over hi.core hov
  have hb := brk_unclean hi.core ho hcl
  have hclosed : c.closed = false := by
    cases h : c.closed with
    | false => rfl
    | true => have := (hi.closedOff h).2.1; rw [hr] at this; cases this
  have hsl : c.sleep = false := by rw [← hi.pollSleep hclosed]; exact hp
  have hact : c.active = true := by
    cases h : c.active with
    | true => rfl
    | false => have := (hi.inactive h).1; rw [hr] at this; cases this
  have hrr : c.readyRecv = false := by
    rcases hi.mask hact with h | h | h
    · rw [hclosed] at h; cases h
    · rw [hk] at h; cases h
    · have := h.1; rw [hr] at this; simpa using this.symm
  have h1 := (all_delivered hi ho hsl hk hrr hb hs).1
  refine ⟨h1, ?_⟩
  rw [← h1]
  cases hcr : c.crashed with
  | true => simp only [run, List.foldl_cons, List.foldl_nil, step, hcr, if_true]
  | false =>
    have e1 : step cfg q c .peerClose = { c with fin := true } := by simp [step, hcr]
    have e2 : ∃ d, step cfg q { c with fin := true } (.readable ks) = d ∧ d.delivered = c.delivered := by
      refine ⟨_, rfl, ?_⟩
      simp only [step, hcr, hr, hclosed, Bool.false_eq_true, if_false, not_false_eq_true, and_self,
        if_true, recvData, recvLoop, hs]
      split
      · rename_i h
        split at h
        · cases h
        · split at h
          · cases h
          · cases h
      · rename_i c' e h1 h2
        split at h2
        · cases h2; rfl
        · split at h2
          · cases h2; rfl
          · cases h2; rfl
    obtain ⟨d, h2, h3⟩ := e2
    simp only [run, List.foldl_cons, List.foldl_nil, e1, h2]
    unfold step
    split
    · simp [frames, h3]
    · simp only
      split
      · simp [frames, h3]
      · simp [frames, h3]

example : let c := run (cfg 4 64 4) room (init m0) [.activate, .arrive (good 1).enc, .readable []]
    c.sock = [] ∧ c.readOn = true ∧ c.killed = false ∧ c.poll = false ∧
    frames (cfg 4 64 4) (run (cfg 4 64 4) room c [.peerClose, .readable [], .teardown]) = [good 1] := by
  decide

/-- The full statement of C29: a receiver configured with a magic value delivers only messages with
that value.  (The configured value does not occur in the receiving code: `mg` is arbitrary.) -/
def C29_statement : Prop :=
  ∀ (cfg : Cfg) (mg : BitVec 32) (q : Nat → Bool) (evs : List Ev), cfg.Ok →
    ∀ f ∈ frames cfg (run cfg q (init (Msg.fresh mg 0 0)) evs), f.magic = mg.toNat

/-- C29 is violated: a message with magic 5 is delivered by a network configured with magic 1. -/
theorem C29_violated : ¬ C29_statement := by
  intro h
  have := h (cfg 4 64 4) 1 room [.activate, .arrive (Spec.Frame.enc ⟨5, [7], 0, [1]⟩), .readable []]
    ⟨by decide, by decide⟩ ⟨5, [7], 0, [1]⟩ (by decide)
  revert this
  decide

/-- C29, proved part: a delivered message reports the magic value that was on the wire (so a handler
can check it): the delivered messages are, field by field, messages of the byte stream. -/
theorem C29_magic_partial (cfg : Cfg) (ok : cfg.Ok) (q : Nat → Bool) (m0 : Msg cfg.ow) (evs : List Ev) :
    let c := run cfg q (init m0) evs
    Spec.oversized (rule cfg) c.arrived = false →
    ∀ f ∈ frames cfg c, f ∈ (Spec.split cfg.ow cfg.maxMsg c.arrived).1 := by
  intro c hov f hf
  have := (C23_backpressure cfg ok q m0 evs hov).2
  have hm := this.subset hf
  unfold Spec.messages at hm
  exact (List.mem_filter.mp hm).1

/-! ### sending -/


/-- C30.  In every history the bytes the kernel has taken, followed by the bytes still queued, are
exactly the concatenation of the accepted writes, in order (in a process that has not died; `written`
is that concatenation). -/
theorem C30_wire_bytes (cfg : Cfg) (ok : cfg.Ok) (q : Nat → Bool) (m0 : Msg cfg.ow) (evs : List Ev) :
    let c := run cfg q (init m0) evs
    c.sent ++ c.sendq.flatten = c.written ∧ c.sent <+: c.written ∧
    (c.crashed = false → c.written = evs.flatMap Ev.bytes) := by
  intro c
  have hi : Inv cfg c := inv_run ok q evs (inv_init cfg m0)
  refine ⟨hi.bytes, by rw [← hi.bytes]; exact List.prefix_append _ _, ?_⟩
  have h := written_run ok q evs (inv_init cfg m0)
  intro hc
  exact h hc

example : let c := run (cfg 4 64 4) room (init m0) [.activate, .write [1, 2, 3] true, .write [4, 5] true,
      .notified [], .writable [.sent 2], .writable [.wouldBlock], .write [6] false,
      .writable [.sent 1, .sent 1]]
    c.sent = [1, 2, 3, 4] ∧ c.sendq = [[5]] ∧ c.written = [1, 2, 3, 4, 5] := by decide

/-- The full statement of C31: a live connection with unsent data is waiting for the socket to become
writable or for a notification of its send queue. -/
def C31_statement : Prop :=
  ∀ (cfg : Cfg) (q : Nat → Bool) (m0 : Msg cfg.ow) (evs : List Ev), cfg.Ok →
    let c := run cfg q (init m0) evs
    c.active = true → c.closed = false → c.killed = false → c.sendq.flatten ≠ [] →
    c.writeOn = true ∨ c.notif = true

/-- C31 is violated: an empty write ends the sending loop as if the queue were empty, and the data
behind it is left alone. -/
theorem C31_violated : ¬ C31_statement := by
  intro h
  have := h (cfg 4 64 4) room m0 [.activate, .writable [], .write [] true, .write [1] true, .notified []]
    ⟨by decide, by decide⟩
  revert this
  decide

/-- C31, proved part: if no write is empty, a live connection with unsent data always waits for
writability or for a notification; a writability callback with a kernel that takes something makes
progress; and one in which the kernel takes all it is offered sends everything.
Missing: histories with empty writes. -/
theorem C31_sent_partial (cfg : Cfg) (ok : cfg.Ok) (q : Nat → Bool) (m0 : Msg cfg.ow) (evs : List Ev)
    (hne : ∀ ev ∈ evs, ∀ a, ev ≠ .write [] a) :
    let c := run cfg q (init m0) evs
    (c.active = true → c.closed = false → c.killed = false → c.sendq ≠ [] →
      c.writeOn = true ∨ c.notif = true) ∧
    (c.writeOn = true → c.crashed = false → c.sendq ≠ [] →
      (∀ n rs, 0 < n →
        c.sent.length < (step cfg q c (.writable (.sent n :: rs))).sent.length) ∧
      (step cfg q c (.writable (c.sendq.map fun s => .sent s.length))).sent = c.written) := by
  intro c
  have hi : Inv cfg c := inv_run ok q evs (inv_init cfg m0)
  have hso : SendOk c := sendOk_run ok q evs (inv_init cfg m0) ⟨by simp [init], by simp [init]⟩ (by
    intro ev hev
    cases ev with
    | write d a =>
      intro hd
      rw [hd] at hev
      exact hne _ hev a rfl
    | _ => trivial)
  refine ⟨?_, ?_⟩
  · intro ha hcl hk hq
    rcases hi.mask ha with h | h | h
    · rw [hcl] at h; cases h
    · rw [hk] at h; cases h
    · rcases hso.2 with h2 | h2 | h2 | h2 | h2
      · rw [hcl] at h2; cases h2
      · rw [hk] at h2; cases h2
      · exact Or.inl (h.2 h2)
      · exact absurd h2 hq
      · exact Or.inr h2
  · intro hw hcr hq
    have hcl : c.closed = false := by
      cases h : c.closed with
      | false => rfl
      | true => have := (hi.closedOff h).2.2; rw [hw] at this; cases this
    have hstep : ∀ rs, step cfg q c (.writable rs) = sendLoop rs c c.sendq := by
      intro rs
      simp [step, hcr, hw, hcl, sendData]
    refine ⟨?_, ?_⟩
    · intro n rs hn
      rw [hstep]
      obtain ⟨s, l, hsl⟩ : ∃ s l, c.sendq = s :: l := by
        cases h : c.sendq with
        | nil => exact absurd h hq
        | cons s l => exact ⟨s, l, rfl⟩
      rw [hsl]
      exact send_progress c s l (hso.1 s (by rw [hsl]; simp)) n hn rs
    · rw [hstep, (send_flush c c.sendq hso.1).1]
      exact hi.bytes

example : let c := run (cfg 4 64 4) room (init m0) [.activate, .write [1, 2, 3] true, .writable [.sent 1]]
    c.active = true ∧ c.closed = false ∧ c.killed = false ∧ c.sendq = [[2, 3]] ∧ c.writeOn = true := by
  decide

/-- A message as `send_msg` builds it (msg.h:62-67) from the bytes `p` of a typed message. -/
def ConnIO.sentMsg (cfg : Cfg) (magic : BitVec 32) (op : BitVec (8 * cfg.ow)) (p : List Byte) : Msg cfg.ow :=
  (Msg.ofTyped cfg.e cfg.H op (DataStream.ofBytes p) magic).getD (Msg.fresh 0 0 0)

/-- C32.  One end sends messages (opcode, payload; payloads within the other end's limit) by
`send_msg`, i.e. by writing their serialised form, in a history `sevs` of its connection with
arbitrary kernel results; the other end has the same opcode type, hash and byte order (its own limits
`maxMsg`, `chunk`, `maxSegs`) and runs any history `revs` in which it receives (a prefix of) what the
kernel took.  Then what it has delivered is a prefix of the messages sent, unchanged and in order; and
if everything written has arrived and been read, no message waits for the queue, reading is enabled
and no termination is under way, it is all of them. -/
theorem C32_end_to_end (scfg : Cfg) (maxMsg chunk maxSegs : Nat)
    (oks : scfg.Ok) (okr : ({ scfg with maxMsg, chunk, maxSegs } : Cfg).Ok)
    (qs qr : Nat → Bool) (sm rm : Msg scfg.ow) (sevs revs : List Ev)
    (magic : BitVec 32) (msgs : List (BitVec (8 * scfg.ow) × List Byte))
    (hlen : ∀ m ∈ msgs, m.2.length ≤ maxMsg ∧ m.2.length < 2 ^ 32)
    (hw : sevs.flatMap Ev.bytes = msgs.flatMap fun m => (sentMsg scfg magic m.1 m.2).serialize scfg.e) :
    let rcfg : Cfg := { scfg with maxMsg, chunk, maxSegs }
    let s := run scfg qs (init sm) sevs
    let r := run rcfg qr (init rm) revs
    let expected : List Spec.Frame := msgs.map fun m =>
      ⟨magic.toNat, memEnc scfg.e m.1, (Msg.checksumOf scfg.e scfg.H m.2).toNat, m.2⟩
    s.crashed = false → r.arrived <+: s.sent →
    frames rcfg r <+: expected ∧
    (r.arrived = s.written → r.sock = [] → r.readOn = true → r.poll = false → r.killed = false →
      frames rcfg r = expected) := by
  intro rcfg s r expected hcr harr
  have hs := C30_wire_bytes scfg oks qs sm sevs
  have hr : Inv rcfg r := inv_run okr qr revs (inv_init rcfg rm)
  have hv : ∀ f ∈ expected, f.Valid rcfg.ow rcfg.maxMsg := by
    intro f hf
    obtain ⟨m, hm, rfl⟩ := List.mem_map.mp hf
    obtain ⟨h1, h2⟩ := hlen m hm
    exact ⟨by simp [rcfg], magic.isLt, (Msg.checksumOf scfg.e scfg.H m.2).isLt, h2, h1⟩
  have hg : ∀ f ∈ expected, (rule rcfg).good f.checksum f.payload = true := by
    intro f hf
    obtain ⟨m, hm, rfl⟩ := List.mem_map.mp hf
    simp [rule, rcfg]
  have hwr : s.written = expected.flatMap Spec.Frame.enc := by
    rw [hs.2.2 hcr, hw]
    simp only [expected, List.flatMap_map]
    have key : ∀ l : List (BitVec (8 * scfg.ow) × List Byte),
        (∀ m ∈ l, m.2.length ≤ maxMsg ∧ m.2.length < 2 ^ 32) →
        (l.flatMap fun m => (sentMsg scfg magic m.1 m.2).serialize scfg.e)
        = l.flatMap fun m => Spec.Frame.enc
          ⟨magic.toNat, memEnc scfg.e m.1, (Msg.checksumOf scfg.e scfg.H m.2).toNat, m.2⟩ := by
      intro l hl
      induction l with
      | nil => rfl
      | cons m l ih =>
        rw [List.flatMap_cons, List.flatMap_cons, ih (fun x hx => hl x (by simp [hx]))]
        congr 1
        have h2 := (hl m (by simp)).2
        have hm : sentMsg scfg magic m.1 m.2 = ⟨magic, m.1, BitVec.ofNat _ m.2.length,
            Msg.checksumOf scfg.e scfg.H m.2, m.2, false⟩ := by
          simp [sentMsg, Msg.ofTyped, DataStream.toBytesLvalue, DataStream.ofBytes, Msg.setChecksum,
            Msg.getChecksum, Msg.setPayload, Msg.setOpcode, Msg.fresh]
        rw [hm, Msg.serialize_eq]
        simp only [Msg.headerBytes, Spec.Frame.enc, BitVec.toNat_ofNat]
        rw [Nat.mod_eq_of_lt (by omega)]
    exact key msgs hlen
  have hpre : r.arrived <+: expected.flatMap Spec.Frame.enc := by
    rw [← hwr]; exact harr.trans hs.2.1
  have hsp := Spec.split_prefix expected hv r.arrived hpre
  have hov : Spec.oversized (rule rcfg) r.arrived = false := hsp.2
  have hmsg : Spec.messages (rule rcfg) r.arrived = (Spec.split rcfg.ow rcfg.maxMsg r.arrived).1 :=
    List.filter_eq_self.mpr fun f hf => hg f (hsp.1.subset hf)
  have hdel := (C23_backpressure rcfg okr qr rm revs hov).2
  refine ⟨hdel.trans (by rw [hmsg]; exact hsp.1), ?_⟩
  intro hall hsock hron hpoll hk
  have hcl : Spec.clean (rule rcfg) r.arrived = true :=
    List.all_eq_true.mpr fun f hf => hg f (hsp.1.subset hf)
  have h1 := (C28_close_partial rcfg okr qr rm revs [] hov hcl hsock hron hk hpoll).1
  have h2 := Spec.split_encs expected hv []
  rw [List.append_nil, ← hwr, ← hall, Spec.split_short (bs := []) (by simp; omega)] at h2
  rw [h1, hmsg, h2]
  simp

/-- C32 is not vacuous: two messages written in one go, sent in three pieces, received in three. -/
example : let scfg := cfg 4 8 4
    let bs := [(7, [1]), (8, [2, 3])].flatMap fun (m : BitVec 8 × List Byte) =>
      (sentMsg scfg 5 m.1 m.2).serialize .little
    let sevs := [.activate, .write bs true, .notified [], .writable [.sent 4], .writable [.sent 20],
      .writable [.sent 100]]
    let s := run scfg room (init m0) sevs
    let r := run { scfg with chunk := 16 } room (init m0) [.activate, .arrive (s.sent.take 10),
      .readable [], .arrive (s.sent.drop 10), .readable [3], .readable []]
    sevs.flatMap Ev.bytes = bs ∧ s.sent = s.written ∧ r.arrived = s.written ∧ r.sock = [] ∧
    frames { scfg with chunk := 16 } r = [⟨5, [7], 0, [1]⟩, ⟨5, [8], 0, [2, 3]⟩] := by decide

/-- The full statement of C73: as C32 (delivery of what was sent), between hosts of any byte order. -/
def C73_statement : Prop :=
  ∀ (es er : Endian) (ow : Nat) (H : List Byte → List Byte) (magic : BitVec 32) (op : BitVec (8 * ow))
    (p : List Byte) (m : Msg ow),
    Msg.ofTyped es H op (DataStream.ofBytes p) magic = some m → p.length < 2 ^ 32 →
    ∃ r : Msg ow, Msg.ofHeader er ow (DataStream.ofBytes (m.serialize es)) = some r ∧
      r.opcode = op ∧ (r.setPayload p).verifyChecksum er H = some true

/-- C73 is violated: the checksum is computed in host byte order, so a big-endian receiver rejects
what a little-endian sender sends; and two-byte opcodes are read with their bytes swapped. -/
theorem C73_violated : ¬ C73_statement := by
  intro h
  obtain ⟨r, h1, h2, h3⟩ := h .little .big 1 (fun _ => [1, 2, 3, 4]) 0 7 [9]
    ⟨0, 7, 1, 0x04030201, [9], false⟩ (by decide) (by decide)
  have hr : Msg.ofHeader .big 1 (DataStream.ofBytes
      ((Msg.mk (ow := 1) 0 7 1 0x04030201 [9] false).serialize .little))
      = some ⟨0, 7, 1, 0x04030201, [], true⟩ := by decide
  rw [hr] at h1
  cases h1
  revert h3
  decide

/-- With two-byte opcodes the opcode arrives with its bytes swapped. -/
theorem C73_violated_opcode :
    (Msg.ofHeader .big 2 (DataStream.ofBytes
      ((Msg.mk (ow := 2) 0 0x0102 0 0 [] false).serialize .little))).map Msg.opcode = some 0x0201 := by
  decide

/-- C73, proved part: hosts of the same byte order (either one) agree on opcode, length, magic and
checksum.  Missing: hosts of different byte order. -/
theorem C73_interop_partial (e : Endian) (ow : Nat) (H : List Byte → List Byte) (magic : BitVec 32)
    (op : BitVec (8 * ow)) (p : List Byte) (m : Msg ow) (hp : p.length < 2 ^ 32)
    (hbuf : 12 + ow + p.length < 2 ^ 63)
    (hm : Msg.ofTyped e H op (DataStream.ofBytes p) magic = some m) :
    ∃ r : Msg ow, Msg.ofHeader e ow (DataStream.ofBytes (m.serialize e)) = some r ∧
      r.opcode = op ∧ r.magic = magic ∧ r.length.toNat = p.length ∧
      (r.setPayload p).verifyChecksum e H = some true := by
  have hm' : m = ⟨magic, op, BitVec.ofNat _ p.length, Msg.checksumOf e H p, p, false⟩ := by
    simp [Msg.ofTyped, DataStream.toBytesLvalue, DataStream.ofBytes, Msg.setChecksum,
      Msg.getChecksum, Msg.setPayload, Msg.setOpcode, Msg.fresh] at hm
    exact hm.symm
  have hser : (DataStream.ofBytes (m.serialize e)).unread = Msg.headerBytes e m ++ m.payload := by
    simp [DataStream.ofBytes, DataStream.unread, Msg.serialize_eq]
  have hwf : (DataStream.ofBytes (m.serialize e)).Wf := by
    simp only [DataStream.ofBytes, DataStream.Wf, Msg.serialize_eq, List.length_append,
      Msg.headerBytes_length, Msg.headerSize]
    subst hm'; simp only; omega
  refine ⟨_, Msg.ofHeader_ok hwf e m hser, ?_⟩
  subst hm'
  refine ⟨rfl, rfl, ?_, ?_⟩
  · simp only [BitVec.toNat_ofNat]; omega
  · simp [Msg.setPayload, Msg.verifyChecksum, Msg.getChecksum]

example : (Msg.ofTyped (ow := 2) .big (fun _ => [1, 2, 3, 4]) 0x0102 (DataStream.ofBytes [9]) 0).isSome
    = true := by decide

end Salticidae
