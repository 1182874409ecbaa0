import Verif.Lemmas.TlsFine
import Verif.Props.ConnIO
/-
Property theorems for TLS connections (C80-C84).

`(Worker.init m).run cfg q evs` is any history of a worker thread and its connections: handshakes with
any outcome, connection callbacks, records arriving, read and write callbacks with any answers of the
kernel, refusals of the message queue, writes, failures and teardowns, in any interleaving.  For
connection `i` with state `t`, `t.c.arrived` is the plaintext that arrived, `frames cfg t.c` the messages
accepted by the message queue, `t.c.written` the bytes given to `write`, `t.enc` the plaintext put into
records, `t.c.killed` says whether its termination has been requested.
-/
namespace Salticidae
open ConnIO (Cfg frames rule held)
open Tls

namespace Tls.Demo
open ConnIO.Demo

/-- A worker with the small network of `ConnIO.Demo`. -/
abbrev w0 : Worker 1 := Worker.init m0

abbrev go (evs : List (Nat × Ev)) : Worker 1 := w0.run (cfg 4 8 4) (fun _ => room) evs

/-- A connection that has completed its handshake and been accepted. -/
def opened (i : Nat) : List (Nat × Ev) := [(i, .shake false .wantRead), (i, .shake false (.done true)), (i, .callback true)]

end Tls.Demo
open Tls.Demo ConnIO.Demo

/-! ### connections of one worker do not disturb each other -/

/-- The full statement of C80: what becomes of a connection depends on its own history only. -/
def C80_statement : Prop :=
  ∀ (cfg : Cfg) (q : Nat → Nat → Bool) (m : Msg cfg.ow) (evs : List (Nat × Ev)) (i : Nat), cfg.Ok →
    ((Worker.init m).run cfg q evs).conns i = ((Worker.init m).run cfg q (evs.filter fun e => e.1 == i)).conns i

/-- C80 is violated: a failed handshake of connection 0 leaves an error in the thread's error queue;
connection 1, which is healthy, is terminated at its next read callback. -/
theorem C80_violated : ¬ C80_statement := by
  intro h
  have := congrArg (fun t => t.c.killed) (h (cfg 4 8 4) (fun _ => room) m0
    (opened 1 ++ [(0, .shake false .fatal), (1, .readable [])]) 1 ⟨by decide, by decide⟩)
  revert this
  decide

/-- C80 is violated also by a connection torn down while in its handshake (a timeout, a removed peer,
a socket error), without any failure of TLS. -/
theorem C80_violated_teardown :
    ((go (opened 1 ++ [(0, .shake false .wantRead), (0, .teardown false), (1, .readable [])])).conns 1).c.killed = true ∧
    ((go (opened 1 ++ [(1, .readable [])])).conns 1).c.killed = false := by decide

/-- C80 is violated for every connection: whatever state a live connection with nothing to read is in,
it is terminated by its next read callback if another connection's handshake has failed before. -/
theorem C80_violated_always (cfg : Cfg) (ok : cfg.Ok) (q : Nat → Nat → Bool) (m : Msg cfg.ow) (evs : List (Nat × Ev))
    (i j : Nat) (hij : i ≠ j) :
    let w := (Worker.init m).run cfg q evs
    (w.conns i).phase = .opened → (w.conns i).c.readOn = true → (w.conns i).c.crashed = false →
    (w.conns i).c.sock = [] → (w.conns i).c.buf.len < cfg.maxSegs →
    (w.conns j).phase = .handshake → (w.conns j).c.closed = false → (w.conns j).c.crashed = false →
    ((w.run cfg q [(j, .shake false .fatal), (i, .readable [])]).conns i).c.killed = true := by
  intro w h1 h2 h3 h4 h5 h6 h7 h8
  have hi : Inv cfg (w.conns i) := Tls.inv_run ok q evs (fun _ => inv_init cfg m) i
  have hw : (w.conns j).c.closed = true ∨ (w.conns j).c.readOn = true ∨ (w.conns j).c.writeOn = true := by
    have : ∀ (evs : List (Nat × Ev)) (w : Worker cfg.ow), (∀ i, Inv cfg (w.conns i)) → (∀ i, Inv2 (w.conns i)) →
        ∀ i, Inv2 ((w.run cfg q evs).conns i) := by
      intro evs
      induction evs with
      | nil => intro w _ h; exact h
      | cons e evs ih =>
        intro w hi h
        refine ih _ (inv_wstep ok q hi e) ?_
        intro i
        simp only [Worker.step]
        split
        · exact inv2_step ok _ _ (hi e.1) (h e.1) e.2
        · exact h i
    exact (this evs (Worker.init m) (fun _ => inv_init cfg m) (fun _ => inv2_init m) j).watch h6
  have hcl : (w.conns i).c.closed = false := by
    cases hh : (w.conns i).c.closed with
    | false => rfl
    | true => have := (hi.closedOff hh).2.1; rw [h2] at this; cases this
  have hw' : (w.conns j).c.readOn = true ∨ (w.conns j).c.writeOn = true := by
    rcases hw with h | h
    · rw [h7] at h; cases h
    · exact h
  have hr : (w.conns i).ready = 0 := by
    have := hi.framed.ready_le
    rw [h4] at this; simpa using this
  have hl : ∀ fuel, recvLoop cfg (fuel + 1) [] true (w.conns i) =
      ({ w.conns i with c := { (w.conns i).c with killed := true } }, true, .eof) := by
    intro fuel
    unfold recvLoop
    rw [if_neg (by omega)]
    simp only [List.headD_nil, hr, if_true]
    split <;> rfl
  have e1 : (w.step cfg q (j, .shake false .fatal)).errq = true := by
    simp only [Worker.step, Tls.step]
    rw [if_neg (by simp [h8]), if_pos ⟨h6, by simp [h7], hw'⟩]
    rfl
  have e2 : (w.step cfg q (j, .shake false .fatal)).conns i = w.conns i := by
    simp only [Worker.step]
    rw [if_neg hij]
  have e3 : w.run cfg q [(j, .shake false .fatal), (i, .readable [])] =
      (w.step cfg q (j, .shake false .fatal)).step cfg q (i, .readable []) := rfl
  rw [e3]
  generalize w.step cfg q (j, .shake false .fatal) = v at e1 e2
  simp only [Worker.step, if_true, Tls.step, e1, e2]
  rw [if_neg (by simp [h3]), if_pos ⟨h2, by simp [hcl], h1⟩]
  simp only [Tls.recvData, hl, Tls.caught]

example : let w := go (opened 1)
    (w.conns 1).phase = .opened ∧ (w.conns 1).c.readOn = true ∧ (w.conns 1).c.crashed = false ∧ (w.conns 1).c.sock = [] ∧
    (w.conns 1).c.buf.len < 4 ∧ (w.conns 0).phase = .handshake ∧ (w.conns 0).c.closed = false ∧
    (w.conns 0).c.crashed = false := by decide

/-- C80, proved part: a history in which no event of another connection changes the thread's error
queue leaves the connection exactly as its own events alone would.  Missing: histories in which another
connection fails or is torn down during its handshake. -/
theorem C80_isolation_partial (cfg : Cfg) (q : Nat → Nat → Bool) (m : Msg cfg.ow) (evs : List (Nat × Ev)) (i : Nat)
    (h : ∀ p e, p ++ [e] <+: evs → e.1 ≠ i →
      ((Worker.init m).run cfg q (p ++ [e])).errq = ((Worker.init m).run cfg q p).errq) :
    ((Worker.init m).run cfg q evs).conns i = ((Worker.init m).run cfg q (evs.filter fun e => e.1 == i)).conns i := by
  have key : ∀ (evs : List (Nat × Ev)) (w v : Worker cfg.ow), w.conns i = v.conns i → w.errq = v.errq →
      (∀ p e, p ++ [e] <+: evs → e.1 ≠ i → (w.run cfg q (p ++ [e])).errq = (w.run cfg q p).errq) →
      (w.run cfg q evs).conns i = (v.run cfg q (evs.filter fun e => e.1 == i)).conns i := by
    intro evs
    induction evs with
    | nil => intro w v h1 _ _; exact h1
    | cons e evs ih =>
      intro w v h1 h2 h3
      have h3' : ∀ p e', p ++ [e'] <+: evs → e'.1 ≠ i →
          ((w.step cfg q e).run cfg q (p ++ [e'])).errq = ((w.step cfg q e).run cfg q p).errq := by
        intro p e' hp hn
        exact h3 (e :: p) e' (by rw [List.cons_append]; exact List.cons_prefix_cons.mpr ⟨rfl, hp⟩) hn
      by_cases he : e.1 = i
      · rw [List.filter_cons_of_pos (by simp [he])]
        refine ih (w.step cfg q e) (v.step cfg q e) ?_ ?_ h3'
        · simp only [Worker.step, he, h1, h2]
        · simp only [Worker.step, he, h1, h2]
      · rw [List.filter_cons_of_neg (by simp [he])]
        refine ih (w.step cfg q e) v ?_ ?_ h3'
        · simp only [Worker.step]; rw [if_neg (fun hh => he hh.symm)]; exact h1
        · have := h3 [] e (by simp) he
          exact this.trans h2
  exact key evs _ _ rfl rfl h

/-- Two healthy connections on one worker. -/
example : let evs := opened 1 ++ opened 0 ++ [(0, Ev.write [1, 2] true 7), (1, .arrive (good 5).enc), (0, .notified []),
      (1, .readable [])]
    (∀ p e, p ++ [e] <+: evs → e.1 ≠ 1 → (go (p ++ [e])).errq = (go p).errq) ∧
    frames (cfg 4 8 4) ((go evs).conns 1).c = [good 5] := by
  refine ⟨?_, by decide⟩
  intro p e hp _
  have hq : ∀ n, n ≤ 10 → (go ((opened 1 ++ opened 0 ++ [(0, Ev.write [1, 2] true 7), (1, .arrive (good 5).enc),
      (0, .notified []), (1, .readable [])]).take n)).errq = false := by
    intro n hn
    have : ∀ n ∈ List.range 11, (go ((opened 1 ++ opened 0 ++ [(0, Ev.write [1, 2] true 7), (1, .arrive (good 5).enc),
      (0, .notified []), (1, .readable [])]).take n)).errq = false := by decide
    exact this n (by simp; omega)
  have h1 := List.prefix_iff_eq_take.mp hp
  have h2 := List.prefix_iff_eq_take.mp ((List.prefix_append p [e]).trans hp)
  have hl := hp.length_le
  simp [opened] at hl
  have a := hq (p ++ [e]).length (by simp; omega)
  have b := hq p.length (by omega)
  rw [← h1] at a
  rw [← h2] at b
  rw [a, b]

/-! ### a full kernel buffer -/

/-- The full statement of C81: if nothing fails (`Healthy`: no alert, reset, refusal, renegotiation, end
of stream, teardown) and no oversized message is received, no connection is terminated. -/
def C81_statement : Prop :=
  ∀ (cfg : Cfg) (q : Nat → Nat → Bool) (m : Msg cfg.ow) (evs : List (Nat × Ev)), cfg.Ok →
    (∀ e ∈ evs, e.2.Healthy) → ∀ i,
    let t := ((Worker.init m).run cfg q evs).conns i
    Spec.oversized (rule cfg) t.c.arrived = false → t.c.killed = false

/-- C81 is violated: one write that finds the kernel's buffer full, and the next write callback
terminates the connection, since the data is no longer where OpenSSL was told it is. -/
theorem C81_violated : ¬ C81_statement := by
  intro h
  obtain ⟨evs, he⟩ : ∃ evs, evs = opened 0 ++ [(0, .write [1, 2] true 7), (0, .writable [(9, .wantWrite)]),
      (0, .writable [(10, .taken 2)])] := ⟨_, rfl⟩
  have ha : ((go evs).conns 0).c.arrived = [] := by rw [he]; decide
  have hk : ((go evs).conns 0).c.killed = true := by rw [he]; decide
  have ho : Spec.oversized (rule (cfg 4 8 4)) ((go evs).conns 0).c.arrived = false := by
    rw [ha]
    unfold Spec.oversized
    rw [Spec.split_short (by decide)]
  have hh : ∀ e ∈ evs, e.2.Healthy := by
    intro e hm
    rw [he] at hm
    simp only [opened, List.cons_append, List.nil_append, List.mem_cons, List.not_mem_nil, or_false] at hm
    rcases hm with rfl | rfl | rfl | rfl | rfl | rfl <;> simp [Ev.Healthy]
  have := h (cfg 4 8 4) (fun _ => room) m0 evs ⟨by decide, by decide⟩ hh 0 ho
  exact absurd (hk.symm.trans this) (by decide)

/-- C81 is violated whenever it matters: in every reachable state of every live connection with a write
that found the kernel's buffer full, the next write callback terminates the connection, whatever the
allocator, the kernel and the other connections do. -/
theorem C81_violated_always (cfg : Cfg) (ok : cfg.Ok) (q : Nat → Nat → Bool) (m : Msg cfg.ow) (evs : List (Nat × Ev))
    (i : Nat) :
    let w := (Worker.init m).run cfg q evs
    (w.conns i).retry ≠ none → (w.conns i).hs = true → (w.conns i).c.closed = false → (w.conns i).c.crashed = false →
    (w.conns i).c.killed = false → (w.conns i).c.writeOn = true → ∀ ws,
    ((w.step cfg q (i, .writable ws)).conns i).c.killed = true := by
  intro w h1 h2 h3 h4 h5 h6 ws
  have hi : Inv cfg (w.conns i) := Tls.inv_run ok q evs (fun _ => inv_init cfg m) i
  simp only [Worker.step, if_true, Tls.step]
  rw [if_neg (by simp [h4]), if_pos ⟨h6, by simp [h3], h2⟩]
  exact retry_kills hi h5 h1 ws _

example : let t := (go (opened 0 ++ [(0, .write [1, 2] true 7), (0, .writable [(9, .wantWrite)])])).conns 0
    t.retry ≠ none ∧ t.hs = true ∧ t.c.closed = false ∧ t.c.crashed = false ∧ t.c.killed = false ∧ t.c.writeOn = true := by
  decide

/-- C81, proved part: as long as the kernel's buffer never is full (`Flowing`).  Missing: a full
buffer. -/
theorem C81_flowing_partial (cfg : Cfg) (ok : cfg.Ok) (q : Nat → Nat → Bool) (m : Msg cfg.ow) (evs : List (Nat × Ev))
    (h1 : ∀ e ∈ evs, e.2.Healthy) (h2 : ∀ e ∈ evs, e.2.Flowing) (i : Nat) :
    let t := ((Worker.init m).run cfg q evs).conns i
    Spec.oversized (rule cfg) t.c.arrived = false → t.c.killed = false := by
  intro t ho
  have hi : Inv cfg t := Tls.inv_run ok q evs (fun _ => inv_init cfg m) i
  have hf : Fine t := fine_run ok q evs (fun _ => inv_init cfg m) rfl
    (fun _ => ⟨rfl, rfl, by simp [Worker.init, Tls.init, ConnIO.init]⟩) h1 h2 i
  cases hk : t.c.killed with
  | false => rfl
  | true =>
    have h3 := hf.killed hk
    have h4 := ConnIO.not_over hi.core ho
    rw [h3] at h4; cases h4

/-- Healthy and flowing: data in both directions. -/
example : let evs := opened 0 ++ [(0, .write [1, 2, 3] true 7), (0, .arrive ((good 5).enc)), (0, .writable [(9, .taken 2)]),
      (0, .readable []), (0, .readable []), (0, .writable [])]
    (∀ e ∈ evs, e.2.Healthy) ∧ (∀ e ∈ evs, e.2.Flowing) ∧
    frames (cfg 4 8 4) ((go evs).conns 0).c = [good 5] ∧ ((go evs).conns 0).c.sent = [1, 2, 3] ∧
    ((go evs).conns 0).c.killed = false := by
  refine ⟨?_, ?_, by decide, by decide, by decide⟩ <;>
  · intro e he
    simp only [opened, List.cons_append, List.nil_append, List.mem_cons, List.not_mem_nil, or_false] at he
    rcases he with rfl | rfl | rfl | rfl | rfl | rfl | rfl | rfl | rfl <;> simp [Ev.Healthy, Ev.Flowing]

/-! ### the streams -/

/-- C82, receiving: in every history, of every connection, without an oversized header, the messages
that arrived are those delivered, at most one waiting for room in the queue, and those of the bytes
still held; and a corrupted message is never delivered. -/
theorem C82_received (cfg : Cfg) (ok : cfg.Ok) (q : Nat → Nat → Bool) (m : Msg cfg.ow) (evs : List (Nat × Ev)) (i : Nat) :
    let t := ((Worker.init m).run cfg q evs).conns i
    (∀ f ∈ frames cfg t.c, (rule cfg).good f.checksum f.payload = true ∧ f.payload.length ≤ cfg.maxMsg) ∧
    (Spec.oversized (rule cfg) t.c.arrived = false →
      frames cfg t.c <+: Spec.messages (rule cfg) t.c.arrived ∧
      ∃ waiting : List Spec.Frame, waiting.length ≤ 1 ∧ Spec.messages (rule cfg) t.c.arrived =
        frames cfg t.c ++ waiting ++ Spec.messages (rule cfg) (held cfg t.c ++ t.c.sock)) := by
  intro t
  have hi : Inv cfg t := Tls.inv_run ok q evs (fun _ => inv_init cfg m) i
  refine ⟨?_, fun ho => ?_⟩
  · intro f hf
    simp only [frames, List.mem_map] at hf
    obtain ⟨m, hm, rfl⟩ := hf
    have := (hi.core.acc m hm).2.2.1
    exact ⟨by simp [rule, ConnIO.view, this], (hi.core.acc m hm).2.1⟩
  · have h := ConnIO.messages_eq hi.core (ConnIO.not_over hi.core ho)
    refine ⟨by rw [h, List.append_assoc]; exact List.prefix_append _ _, _, ?_, h⟩
    split <;> simp

/-- Two messages in three records, the queue refusing once. -/
example : let w := w0.run (cfg 4 8 4) (fun _ i => i ≠ 1) (opened 0 ++ [(0, .arrive ((good 1).enc.take 5)),
      (0, .arrive ((good 1).enc.drop 5)), (0, .readable []), (0, .readable []), (0, .arrive (good 2).enc), (0, .readable [])])
    frames (cfg 4 8 4) (w.conns 0).c = [good 1] ∧ (w.conns 0).c.poll = true ∧
    frames (cfg 4 8 4) ((w.run (cfg 4 8 4) (fun _ i => i ≠ 1) [(0, .poll [])]).conns 0).c = [good 1, good 2] := by decide

/-- C82, sending: the plaintext put into records is always a prefix of what was written to the
connection, in order and without gap or repetition; what the code counts as sent is in records; and
what is not counted as sent is still queued. -/
theorem C82_sent (cfg : Cfg) (ok : cfg.Ok) (q : Nat → Nat → Bool) (m : Msg cfg.ow) (evs : List (Nat × Ev)) (i : Nat) :
    let t := ((Worker.init m).run cfg q evs).conns i
    t.enc <+: t.c.written ∧ t.c.sent <+: t.enc ∧ t.c.sent ++ t.c.sendq.flatten = t.c.written ∧
    (t.c.crashed = false → t.c.written = (evs.filter fun e => e.1 == i).flatMap fun e => e.2.bytes) := by
  intro t
  have hi : Inv cfg t := Tls.inv_run ok q evs (fun _ => inv_init cfg m) i
  refine ⟨?_, ?_, hi.bytes, ?_⟩
  · have he := hi.enc
    rw [← hi.bytes]
    cases hr : t.retry with
    | none => rw [hr] at he; simp only [EncOk] at he; rw [he]; exact List.prefix_append _ _
    | some al =>
      rw [hr] at he
      obtain ⟨_, h2, h3⟩ := he
      rw [h3, hi.bufs]
      cases hb : t.bufs with
      | nil => rw [hb] at h2; simp [headData] at h2; simp [headData]
      | cons b rest =>
        simp only [headData, List.head?_cons, Option.map_some, Option.getD_some, List.map_cons, List.flatten_cons]
        exact (List.prefix_append_right_inj _).mpr ((List.take_prefix _ _).trans (List.prefix_append _ _))
  · have he := hi.enc
    cases hr : t.retry with
    | none => rw [hr] at he; simp only [EncOk] at he; rw [he]; exact List.prefix_refl _
    | some al =>
      rw [hr] at he
      obtain ⟨_, h2, h3⟩ := he
      rw [h3]; exact List.prefix_append _ _
  · have key : ∀ (evs : List (Nat × Ev)) (w : Worker cfg.ow), (∀ i, Inv cfg (w.conns i)) →
        ((w.run cfg q evs).conns i).c.crashed = false →
        ((w.run cfg q evs).conns i).c.written =
          (w.conns i).c.written ++ (evs.filter fun e => e.1 == i).flatMap fun e => e.2.bytes := by
      intro evs
      induction evs with
      | nil => intro w _ _; simp [Worker.run]
      | cons e evs ih =>
        intro w hw hc
        have h1 := ih (w.step cfg q e) (inv_wstep ok q hw e) hc
        have hcr : (w.conns i).c.crashed = false := by
          cases hh : (w.conns i).c.crashed with
          | false => rfl
          | true =>
            have stay : ∀ (evs : List (Nat × Ev)) (w : Worker cfg.ow), (w.conns i).c.crashed = true →
                ((w.run cfg q evs).conns i).c.crashed = true := by
              intro evs
              induction evs with
              | nil => intro w h; exact h
              | cons e evs ih =>
                intro w h
                apply ih
                simp only [Worker.step]
                split
                · rename_i he; rw [← he]; simp [Tls.step, h]
                · exact h
            rw [stay (e :: evs) w hh] at hc; cases hc
        rw [show (w.run cfg q (e :: evs)) = (w.step cfg q e).run cfg q evs from rfl, h1]
        by_cases he : e.1 = i
        · rw [List.filter_cons_of_pos (by simp [he]), List.flatMap_cons, ← List.append_assoc]
          congr 1
          have := written_step ok (q e.1) w.errq (hw e.1) e.2 (by rw [he]; exact hcr)
          simp only [Worker.step, he, if_true] at this ⊢
          exact this
        · rw [List.filter_cons_of_neg (by simp [he])]
          congr 1
          simp only [Worker.step]
          rw [if_neg (fun hh => he hh.symm)]
    intro hc
    have := key evs (Worker.init m) (fun _ => inv_init cfg m) hc
    rw [show ((Worker.init m).conns i).c.written = [] from rfl, List.nil_append] at this
    exact this

example : let t := (go (opened 0 ++ [(0, .write [1, 2] true 7), (0, .write [3] true 7), (0, .writable [(9, .taken 1)]),
    (0, .writable [(9, .wantWrite)])])).conns 0
    t.enc = [1, 2] ∧ t.c.sent = [1] ∧ t.c.written = [1, 2, 3] := by decide

/-- C82, nothing is forgotten: if no empty data is written, a live connection past its handshake with
unsent data either watches the socket for writability or has a notification under way; before that, a
notification is under way. -/
theorem C82_pending (cfg : Cfg) (ok : cfg.Ok) (q : Nat → Nat → Bool) (m : Msg cfg.ow) (evs : List (Nat × Ev))
    (hne : ∀ e ∈ evs, e.2.NonEmpty) (i : Nat) :
    let t := ((Worker.init m).run cfg q evs).conns i
    t.c.closed = false → t.c.killed = false → t.c.sendq ≠ [] →
    t.c.notif = true ∨ (t.phase = .opened ∧ t.c.writeOn = true) ∨ (t.phase = .waiting ∧ t.c.readySend = false) := by
  intro t hc hk hs
  have hi : Inv cfg t := Tls.inv_run ok q evs (fun _ => inv_init cfg m) i
  have key : ∀ (evs : List (Nat × Ev)) (w : Worker cfg.ow), (∀ i, Inv cfg (w.conns i)) →
      (∀ i, ((w.conns i).hs = true → ConnIO.SendOk (w.conns i).c) ∧ (∀ s ∈ (w.conns i).c.sendq, s ≠ []) ∧
        ((w.conns i).c.sendq ≠ [] → (w.conns i).c.closed = true ∨ (w.conns i).hs = true ∨ (w.conns i).c.notif = true)) →
      (∀ e ∈ evs, e.2.NonEmpty) →
      (∀ i, let t := ((w.run cfg q evs).conns i); (t.hs = true → ConnIO.SendOk t.c) ∧ (∀ s ∈ t.c.sendq, s ≠ []) ∧
        (t.c.sendq ≠ [] → t.c.closed = true ∨ t.hs = true ∨ t.c.notif = true)) := by
    intro evs
    induction evs with
    | nil => intro w _ h _; exact h
    | cons e evs ih =>
      intro w hw h hne
      refine ih (w.step cfg q e) (inv_wstep ok q hw e) ?_ (fun e he => hne e (by simp [he]))
      intro i
      simp only [Worker.step]
      split
      · exact sendOk_step ok _ _ (hw e.1) (h e.1).1 (h e.1).2.1 (h e.1).2.2 e.2 (hne e (by simp))
      · exact h i
  obtain ⟨h1, h2, h3⟩ := key evs (Worker.init m) (fun _ => inv_init cfg m)
    (fun _ => by simp [Worker.init, Tls.init, ConnIO.init]) hne i
  cases hn : t.c.notif with
  | true => exact Or.inl rfl
  | false =>
    right
    have hhs : t.hs = true := by
      rcases h3 hs with h | h | h
      · rw [hc] at h; cases h
      · exact h
      · rw [hn] at h; cases h
    have hrs : t.c.readySend = false := by
      rcases (h1 hhs).2 with h | h | h | h | h
      · rw [hc] at h; cases h
      · rw [hk] at h; cases h
      · exact h
      · exact absurd h hs
      · rw [hn] at h; cases h
    cases hp : t.phase with
    | handshake => exact absurd hp (hi.shaken hhs)
    | waiting => exact Or.inr ⟨rfl, hrs⟩
    | opened =>
      left
      have ha := hi.act.mpr hp
      refine ⟨rfl, ?_⟩
      rcases (hi.plain ha).mask ha with h | h | h
      · rw [hc] at h; cases h
      · rw [hk] at h; cases h
      · exact h.2 hrs

/-- Data written before the handshake has completed. -/
example : let evs := [(0, Ev.write [1, 2] true 7), (0, .shake true .wantRead)] ++ [(0, .shake false (.done true))]
    (∀ e ∈ evs, e.2.NonEmpty) ∧ ((go evs).conns 0).c.notif = true ∧ ((go evs).conns 0).c.sendq ≠ [] ∧
    ((go (evs ++ [(0, .notified [])])).conns 0).c.sent = [1, 2] := by
  refine ⟨?_, by decide, by decide, by decide⟩
  intro e he
  simp only [List.cons_append, List.nil_append, List.mem_cons, List.not_mem_nil, or_false] at he
  rcases he with rfl | rfl | rfl <;> simp [Ev.NonEmpty]

/-! ### nothing is left inside the TLS layer -/

/-- C83: a live connection that waits for its socket to become readable holds no decrypted bytes in the
TLS layer (for those no event would come); so if the socket holds no record either, everything that
arrived has been handed to the parser, and, unless a message is waiting for room in the queue, every
message that arrived intact has been delivered. -/
theorem C83_no_stranded_record (cfg : Cfg) (ok : cfg.Ok) (q : Nat → Nat → Bool) (m : Msg cfg.ow) (evs : List (Nat × Ev))
    (i : Nat) :
    let t := ((Worker.init m).run cfg q evs).conns i
    t.phase = .opened → t.c.closed = false → t.c.killed = false → t.c.readOn = true →
    t.pend = 0 ∧ (t.recs = [] → t.c.sock = [] ∧
      (Spec.oversized (rule cfg) t.c.arrived = false → Spec.clean (rule cfg) t.c.arrived = true → t.c.poll = false →
        frames cfg t.c = Spec.messages (rule cfg) t.c.arrived)) := by
  intro t hp hc hk hr
  have hi : Inv cfg t := Tls.inv_run ok q evs (fun _ => inv_init cfg m) i
  have ha := hi.act.mpr hp
  have hpl := hi.plain ha
  have hrr : t.c.readyRecv = false := by
    rcases hpl.mask ha with h | h | h
    · rw [hc] at h; cases h
    · rw [hk] at h; cases h
    · have := h.1; rw [hr] at this; simpa using this.symm
  have hp0 : t.pend = 0 := by
    by_cases h0 : t.pend = 0
    · exact h0
    · rcases hi.pend h0 with h | h
      · rw [hrr] at h; cases h
      · rw [hk] at h; cases h
  refine ⟨hp0, fun hre => ?_⟩
  have hs : t.c.sock = [] := by
    have := hi.framed.len
    rw [hp0, hre] at this
    simpa using this
  refine ⟨hs, fun ho hcl hpo => ?_⟩
  have hov := ConnIO.not_over hi.core ho
  have hsl : t.c.sleep = false := by rw [← hpl.pollSleep hc]; exact hpo
  exact (ConnIO.all_delivered hpl hov hsl hk hrr (ConnIO.brk_unclean hi.core hov hcl) hs).1

/-- One record with a message and the beginning of the next, read in chunks of 8 bytes. -/
example : let t := (go (opened 0 ++ [(0, .arrive ((good 5).enc ++ [0, 0])), (0, .readable [])])).conns 0
    t.phase = .opened ∧ t.c.closed = false ∧ t.c.killed = false ∧ t.c.readOn = true ∧ t.recs = [] ∧ t.c.poll = false ∧
    frames (cfg 4 8 4) t.c = [good 5] ∧ ConnIO.held (cfg 4 8 4) t.c = [0, 0] := by decide

/-! ### before the handshake -/

/-- C84: nothing received is delivered before the handshake has completed with a certificate of the
peer and the connection callback has accepted it; nothing written is put into a record before the
handshake has completed; the connection callback runs at most once, and only after the handshake; a
refusal leads to the termination of the connection; and while the handshake goes on, the socket is
being watched. -/
theorem C84_handshake (cfg : Cfg) (ok : cfg.Ok) (q : Nat → Nat → Bool) (m : Msg cfg.ow) (evs : List (Nat × Ev))
    (i : Nat) :
    let t := ((Worker.init m).run cfg q evs).conns i
    (t.c.delivered ≠ [] → t.hs = true ∧ t.calls = 1 ∧ t.yes = true) ∧
    (t.enc ≠ [] → t.hs = true) ∧
    (t.calls ≤ 1 ∧ (t.calls = 1 → t.hs = true)) ∧
    (t.calls = 1 → t.yes = false → t.c.killed = true ∨ t.c.closed = true) ∧
    (t.phase = .handshake → t.c.closed = false → t.c.readOn = true ∨ t.c.writeOn = true) := by
  intro t
  have hi : Inv cfg t := Tls.inv_run ok q evs (fun _ => inv_init cfg m) i
  have h2 : Inv2 t := by
    have : ∀ (evs : List (Nat × Ev)) (w : Worker cfg.ow), (∀ i, Inv cfg (w.conns i)) → (∀ i, Inv2 (w.conns i)) →
        ∀ i, Inv2 ((w.run cfg q evs).conns i) := by
      intro evs
      induction evs with
      | nil => intro w _ h; exact h
      | cons e evs ih =>
        intro w hi h
        refine ih _ (inv_wstep ok q hi e) ?_
        intro i
        simp only [Worker.step]
        split
        · exact inv2_step ok _ _ (hi e.1) (h e.1) e.2
        · exact h i
    exact this evs (Worker.init m) (fun _ => inv_init cfg m) (fun _ => inv2_init m) i
  have hcb := hi.cb
  refine ⟨?_, ?_, ⟨?_, ?_⟩, ?_, ?_⟩
  · intro hd
    have ha : t.c.active = true := by
      cases hh : t.c.active with
      | true => rfl
      | false => exact absurd (hi.idle hh).2.2.2.2.2.2.2.1 hd
    have hp := hi.act.mp ha
    obtain ⟨h1, h2, h3⟩ := hi.opn hp
    rw [h3, h1] at hcb
    exact ⟨h3, by simpa using hcb, h2⟩
  · intro he
    cases hh : t.hs with
    | true => rfl
    | false =>
      have : t.c.sent = [] ∧ t.retry = none := by
        cases hp : t.phase with
        | handshake => exact hi.shaking hp
        | waiting =>
          rcases hi.half hp with h | h
          · rw [hh] at h; cases h
          · exact h.2
        | opened => have := (hi.opn hp).2.2; rw [hh] at this; cases this
      have h3 := hi.enc
      rw [this.2] at h3
      simp only [EncOk] at h3
      rw [h3] at he
      exact absurd this.1 he
  · split at hcb <;> omega
  · intro h1
    cases hh : t.hs with
    | true => rfl
    | false => rw [hh] at hcb; simp at hcb; omega
  · intro h1; exact h2.refused (by omega)
  · intro hp hc
    rcases h2.watch hp with h | h
    · rw [hc] at h; cases h
    · exact h

/-- Accepted and refused connections. -/
example : let t := (go (opened 0 ++ [(0, .arrive (good 5).enc), (0, .readable [])])).conns 0
    let u := (go [(0, .shake false (.done true)), (0, .callback false)]).conns 0
    let v := (go [(0, .shake false .wantRead)]).conns 0
    t.c.delivered ≠ [] ∧ t.calls = 1 ∧ t.yes = true ∧ u.calls = 1 ∧ u.yes = false ∧ u.c.killed = true ∧
    v.phase = .handshake ∧ v.c.closed = false ∧ v.c.readOn = true := by decide

/-- C84: while the handshake goes on, the socket is watched for exactly what OpenSSL asked for last; a handshake that OpenSSL reports as failed leads
to the termination of the connection; and a handshake that OpenSSL reports as done is over. -/
theorem C84_watched (cfg : Cfg) (ok : cfg.Ok) (q : Nat → Nat → Bool) (m : Msg cfg.ow) (evs : List (Nat × Ev)) (i : Nat) :
    let t := ((Worker.init m).run cfg q evs).conns i
    t.phase = .handshake → t.c.closed = false →
      (lastAnswer i evs = none → t.c.readOn = true ∧ t.c.writeOn = true) ∧
      (lastAnswer i evs = some .wantRead → t.c.readOn = true ∧ t.c.writeOn = false) ∧
      (lastAnswer i evs = some .wantWrite → t.c.readOn = false ∧ t.c.writeOn = true) ∧
      (lastAnswer i evs = some .fatal → t.c.killed = true) ∧
      (∀ cert, lastAnswer i evs ≠ some (.done cert)) := by
  intro t hp hc
  have key : ∀ (evs : List (Nat × Ev)) (w : Worker cfg.ow) (l : Option HsAns), (∀ i, Inv cfg (w.conns i)) → (∀ i, Inv2 (w.conns i)) →
      Inv3 l (w.conns i) → Inv3 (evs.foldl (lastAnswer.next i) l) ((w.run cfg q evs).conns i) := by
    intro evs
    induction evs with
    | nil => intro w l _ _ h; exact h
    | cons e evs ih =>
      intro w l hi h2 h3
      refine ih _ _ (inv_wstep ok q hi e) (fun j => ?_) ?_
      · simp only [Worker.step]
        split
        · exact inv2_step ok _ _ (hi e.1) (h2 e.1) e.2
        · exact h2 j
      · simp only [Worker.step]
        split
        · rename_i he
          subst he
          exact inv3_step ok _ _ (hi e.1) (h2 e.1) h3 e.1 e.2
        · rename_i he
          have : lastAnswer.next i l e = l := by
            obtain ⟨j, ev⟩ := e
            cases ev <;> first | rfl | exact if_neg (Ne.symm he)
          rw [this]
          exact h3
  have h := (key evs (Worker.init m) none (fun _ => inv_init cfg m) (fun _ => inv2_init m) (inv3_init m) hp).2
  rcases h with h | h
  · rw [hc] at h; cases h
  · unfold wants at h
    unfold lastAnswer
    split at h
    · rename_i e; rw [e]; simp [h, t]
    · rename_i e; rw [e]; simp [h, t]
    · rename_i e; rw [e]; simp [h, t]
    · rename_i e; rw [e]; simp [h, t]
    · cases h

/-- A handshake in three steps, between those of another connection. -/
example : let evs := [(0, Ev.shake true .wantWrite), (1, .shake false .wantRead), (0, .shake true .wantRead), (1, .shake true .wantWrite)]
    let t := (go evs).conns 0
    t.phase = .handshake ∧ t.c.closed = false ∧ lastAnswer 0 evs = some .wantRead ∧ t.c.readOn = true ∧ t.c.writeOn = false := by decide

end Salticidae
