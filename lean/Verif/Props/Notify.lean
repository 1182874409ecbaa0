import Verif.Lemmas.Notify
/-
C110: the descriptor by which queues wake up their consumers (`NotifyFd`), on Linux and on macOS.
-/
namespace Salticidae
open Notify Spec.Notify

/-- **C110** (Linux) After any history of any number of threads: the descriptor is readable exactly if there has been a notification and no reset since; and each
reset has said exactly whether there was one before it, so that of several consumers that reset one gets it.  (That nothing blocks is in the types: each operation has a result.) -/
theorem C110_eventfd (ops : List Op) :
    (0 < (evRun ops).1 ↔ Pending ops) ∧ (evRun ops).1 < 2 ^ 64 ∧ (evRun ops).2.length = ops.count .reset ∧
    ∀ pre post, ops = pre ++ .reset :: post → ∃ r, (evRun ops).2[pre.count .reset]? = some r ∧ (r = true ↔ Pending pre) := by
  refine ⟨ev_readable ops, ?_, evRun_count ops, ?_⟩
  · induction ops using snoc_ind with
    | nil => decide
    | snoc q x ih =>
      rw [evRun_snoc]
      have hm : counterMax = 2 ^ 64 - 2 := rfl
      cases x
      · simp only [evStep, evWrite]; split <;> omega
      · simp only [evStep, evRead]; split <;> simp <;> omega
  · rintro pre post rfl
    obtain ⟨l, hl⟩ := evRun_resets (pre ++ [.reset]) post
    rw [List.append_assoc] at hl
    simp only [List.singleton_append] at hl
    refine ⟨(evRead (evRun pre).1).2, ?_, ?_⟩
    · rw [hl, evRun_snoc, ← evRun_count pre]; simp [evStep]
    · rw [← ev_readable pre]
      simp only [evRead]; split <;> simp_all

example : Pending [.notify, .reset, .notify] ∧ (evRun [.notify, .notify, .reset, .reset, .notify]) = (1, [true, false]) :=
  ⟨⟨[.notify, .reset], [], rfl, by simp⟩, by decide⟩

/-- **C110** (macOS) in full: the same, a notification does not have to wait, no memory outside of an array is accessed, and a constructor that throws leaves no descriptor open. -/
def C110_statement : Prop := ∀ rd wr cap, rd.length = 4 → wr.length = 4 → 8 ≤ cap →
  (∀ as, let s := (Pipe.make rd wr cap).run as
    (Quiet s.2 → (s.1.readable = true ↔ PendingSys s.2)) ∧ (.write, .blocked) ∉ s.2 ∧ s.1.outside = false ∧
    (∀ k s' r, Pipe.reset k s.1 = some (s', r) → (r = true ↔ s.1.readable = true))) ∧
  (∀ pipe fcntl, (Pipe.construct cap pipe fcntl).obj = none → (Pipe.construct cap pipe fcntl).left = [])

/-- **C110** is violated: a notification waits for ever if the pipe is full and the thread that would read it is the one that notifies. -/
theorem C110_violated : ¬ C110_statement := fun h => by
  have := ((h [3, 0, 0, 0] [4, 0, 0, 0] 8 rfl rfl (by omega)).1 [.write, .write]).2.1
  exact this (by decide)

/-- The memory is accessed outside of the array `fds`, which has no elements. -/
theorem C110_violated_bounds (rd wr : List Byte) (cap : Nat) : (Pipe.make rd wr cap).outside = true := rfl

/-- Both descriptors stay open if the constructor throws because of fcntl. -/
theorem C110_violated_leak (rd wr : List Byte) (cap : Nat) :
    (Pipe.construct cap (some (rd, wr)) false).obj = none ∧ (Pipe.construct cap (some (rd, wr)) false).left = [rd, wr] := ⟨rfl, rfl⟩

/-- `reset` returns true also if there was nothing. -/
theorem C110_violated_reset (rd wr : List Byte) (cap : Nat) :
    ∃ s', (Pipe.make rd wr cap).reset 1 = some (s', true) ∧ (Pipe.make rd wr cap).readable = false := by
  refine ⟨((Pipe.make rd wr cap).read).1, ?_, by simp [Pipe.make, Pipe.readable]⟩
  unfold Pipe.reset
  rw [if_neg]
  unfold Pipe.read
  split
  · simp [Pipe.make]
  · simp

/-- **C110** (macOS) partial: after any history of the system calls of any number of threads, the two descriptors in the object, which each read overwrites, are those that it was made with, and no
system call has got another one; each notification that has returned has been written and each byte is read once; when no reset is going on, the descriptor is readable exactly if something has been
written since the last one ended; a notification waits only if there is no room for it; a reset ends (if nobody notifies meanwhile), and nothing can be read then; the destructor closes both
descriptors.  (Missing: C110_violated and the following; and the layout of the object is assumed.) -/
theorem C110_pipe_partial (rd wr : List Byte) (hr : rd.length = 4) (hw : wr.length = 4) (cap : Nat) (as : List Sys) (s : Pipe) (log : List (Sys × Out))
    (h : (Pipe.make rd wr cap).run as = (s, log)) :
    s.fds 0 = rd ∧ s.fds 1 = wr ∧ s.stray = [] ∧ (∀ a, (a, Out.badFd) ∉ log) ∧
    log.map Prod.fst = as ∧
    s.buf.length + 8 * log.count (.read, .ok) = 8 * log.count (.write, .ok) ∧ s.buf.length ≤ cap ∧
    (s.readable = true ↔ s.buf ≠ []) ∧
    (Quiet log → (s.readable = true ↔ PendingSys log)) ∧
    (s.write.2 = .blocked ↔ cap < s.buf.length + 8) ∧ (s.write.2 = .ok → s.write.1.readable = true) ∧
    (s.read.2 = .ok ∨ s.read.2 = .again) ∧ (s.read.2 = .again ↔ s.readable = false) ∧
    (∃ s', s.reset (s.buf.length + 1) = some (s', true) ∧ s'.readable = false ∧ s'.fds 0 = rd ∧ s'.fds 1 = wr) ∧
    s.destroy.closed = [rd, wr] := by
  obtain ⟨n, hp, hc, hb, h1, h2⟩ := pi_run (cap := cap) hr hw as
  have hlog : log.map Prod.fst = as := by
    have : ∀ (as : List Sys) (t : Pipe), (t.run as).2.map Prod.fst = as := by
      intro as
      induction as with
      | nil => intro t; rfl
      | cons a as ih => intro t; simp [Pipe.run, ih]
    have := this as (Pipe.make rd wr cap)
    rwa [h] at this
  have hcap : s.buf.length ≤ cap := by
    have : ∀ as : List Sys, ((Pipe.make rd wr cap).run as).1.buf.length ≤ ((Pipe.make rd wr cap).run as).1.cap := by
      intro as
      induction as using snoc_ind with
      | nil => simp [Pipe.run, Pipe.make]
      | snoc q x ih =>
        rw [run_snoc]
        simp only
        obtain ⟨m, hm, _⟩ := pi_run (cap := cap) hr hw q
        generalize ((Pipe.make rd wr cap).run q).1 = t at *
        cases x <;> simp only [Pipe.step]
        · rcases hm.write hr hw with ⟨c, _, h'⟩ | ⟨_, e⟩
          · rw [h'.len hr hw, h'.cap]; omega
          · rw [e]; exact ih
        · rcases hm.read hr hw with ⟨_, e⟩ | ⟨k, ek, _, h'⟩
          · rw [e]; exact ih
          · rw [h'.len hr hw, h'.cap]; rw [hm.len hr hw, hm.cap] at ih; omega
    have h3 := this as
    rw [h] at h3
    rw [h] at hp
    have hc := hp.cap
    simp only at h3 hc
    omega
  rw [h] at hp hc hb h1 h2
  simp only at hp hc hb h1 h2
  have hl := hp.len hr hw
  have rdb : ∀ {m t}, PI rd wr cap m t → (t.readable = true ↔ 0 < m) := by
    intro m t ht
    have hl := ht.len hr hw
    have : t.fds 0 = t.rd := by rw [ht.fds0 hr, ht.r]
    simp only [Pipe.readable, this, beq_self_eq_true, Bool.true_and]
    cases e : t.buf with
    | nil => simp [e] at hl ⊢; omega
    | cons x l => simp [e] at hl ⊢; omega
  have rdb0 : ∀ {t}, PI rd wr cap 0 t → t.readable = false := by
    intro t ht
    have := rdb ht
    cases hx : t.readable
    · rfl
    · exact absurd (this.1 hx) (by omega)
  refine ⟨hp.fds0 hr, hp.fds1 hr hw, hp.stray, hb, hlog, by omega, hcap, ?_, ?_, ?_, ?_, ?_, ?_, ?_, ?_⟩
  · rw [rdb hp]
    cases e : s.buf with
    | nil => simp [e] at hl ⊢; omega
    | cons x l => simp [e] at hl ⊢; omega
  · intro hq; rw [rdb hp]; exact ⟨h1, fun h => h2 h hq⟩
  · rcases hp.write hr hw with ⟨c, e, _⟩ | ⟨c, e⟩
    · rw [e]; simp; omega
    · rw [e]; simp; omega
  · intro e
    rcases hp.write hr hw with ⟨_, _, h'⟩ | ⟨_, e'⟩
    · exact (rdb h').2 (by omega)
    · rw [e'] at e; cases e
  · rcases hp.read hr hw with ⟨_, e⟩ | ⟨_, _, e, _⟩
    · rw [e]; simp
    · exact .inl e
  · rcases hp.read hr hw with ⟨rfl, e⟩ | ⟨m, rfl, e, _⟩
    · rw [e]; simp [rdb0 hp]
    · rw [e, (rdb hp).2 (by omega)]; simp
  · obtain ⟨s', e, h'⟩ := reset_ends hr hw n (s.buf.length + 1) s hp (by omega)
    exact ⟨s', e, rdb0 h', h'.fds0 hr, h'.fds1 hr hw⟩
  · simp [Pipe.destroy, hp.closed, hp.fds0 hr, hp.fds1 hr hw]

/-- Three notifications; two have been read; a third read finds nothing more when the last has been read. -/
example : (((Pipe.make [3, 0, 0, 0] [4, 0, 0, 0] 16).run [.write, .write, .write, .read, .read, .read]).2,
    ((Pipe.make [3, 0, 0, 0] [4, 0, 0, 0] 16).run [.write, .write, .write, .read]).1.readable)
    = ([(.write, .ok), (.write, .ok), (.write, .blocked), (.read, .ok), (.read, .ok), (.read, .again)], true) := by decide

example : Quiet [(.write, .ok), (.read, .ok), (.read, .again), (.write, .ok)] ∧ PendingSys [(.write, .ok), (.read, .ok), (.read, .again), (.write, .ok)] := by
  refine ⟨?_, [(.write, .ok), (.read, .ok), (.read, .again)], [], rfl, by simp⟩
  intro pre o post h hn
  match pre, h with
  | [], h => simp at h
  | [_], h => simp at h; exact absurd (by rw [← h.2.2]; simp) (hn .again)
  | [_, _], h => simp at h; exact h.2.2.1.symm
  | [_, _, _], h => simp at h
  | _ :: _ :: _ :: _ :: l, h => have := congrArg List.length h; simp at this

/-- **C110** With either variant, in a queue with k registered consumers of whose calls of `enqueue` at most M are going on at a time, at most M + 2k + 1 notifications are outstanding at any moment. -/
theorem C110_outstanding {α : Type} (k M : Nat) (as : List (EvQ.Act α)) (s : EvQ.St α) :
    (∀ strict, EvQ.run strict (EvQ.init k) as = some s →
      (∀ n t, EvQ.run strict (EvQ.init k) (as.take n) = some t → active t ≤ M) → s.fd ≤ M + 2 * k + 1) ∧
    (EvQ.runPipe (EvQ.init k) as = some s →
      (∀ n t, EvQ.runPipe (EvQ.init k) (as.take n) = some t → active t ≤ M) → s.fd ≤ M + 2 * k + 1) := by
  obtain ⟨h1, h2⟩ := EvQ.tok_init (α := α) k
  refine ⟨fun b h hM => ?_, fun h hM => ?_⟩
  · have := EvQ.tok_run as _ _ h hM (by omega)
    simp only [EvQ.tok] at this; omega
  · have := EvQ.tok_runPipe as _ _ h hM (by omega)
    simp only [EvQ.tok] at this; omega

/-- **C110** So the notification of an `enqueue`, or of a callback, never waits if the pipe has room for M + 2k + 1 notifications: with the usual 65536 bytes and one consumer, if fewer than 8190 threads
enqueue at a time. -/
theorem C110_never_blocks {α : Type} (k M : Nat) (as : List (EvQ.Act α)) (a : EvQ.Act α) (s s' : EvQ.St α)
    (h : EvQ.runPipe (EvQ.init k) as = some s) (hs : EvQ.stepPipe s a = some s') (hn : s'.fd = s.fd + 1)
    (hM : ∀ n t, EvQ.runPipe (EvQ.init k) ((as ++ [a]).take n) = some t → active t ≤ M)
    (rd wr : List Byte) (hr : rd.length = 4) (hw : wr.length = 4) (cap : Nat) (hcap : 8 * (M + 2 * k + 1) ≤ cap)
    (sys : List Sys) (p : Pipe) (log : List (Sys × Out)) (hp : (Pipe.make rd wr cap).run sys = (p, log)) (hf : p.buf.length = 8 * s.fd) :
    p.write.2 = .ok := by
  have hrun : EvQ.runPipe (EvQ.init k) (as ++ [a]) = some s' := by
    have : ∀ (as : List (EvQ.Act α)) (t : EvQ.St α), EvQ.runPipe t as = some s → EvQ.runPipe t (as ++ [a]) = some s' := by
      intro as
      induction as with
      | nil => intro t ht; cases ht; simp [EvQ.runPipe, hs]
      | cons b as ih =>
        intro t ht
        simp only [List.cons_append, EvQ.runPipe] at ht ⊢
        cases e : EvQ.stepPipe t b with
        | none => rw [e] at ht; cases ht
        | some u => rw [e] at ht; exact ih u ht
    exact this as _ h
  have hle := (C110_outstanding k M (as ++ [a]) s').2 hrun hM
  obtain ⟨n, hpi, _⟩ := pi_run (cap := cap) hr hw sys
  rw [hp] at hpi
  have hl := hpi.len hr hw
  simp only at hpi hl
  rcases hpi.write hr hw with ⟨_, e, _⟩ | ⟨c, _⟩
  · exact e
  · omega

/-- **C110** As C39 says of the eventfd, with the pipe no element is left unnoticed, with any number of producers and consumers: though `reset` is not atomic. -/
theorem C110_no_lost_wakeup {α : Type} (k : Nat) (as : List (EvQ.Act α)) (s : EvQ.St α) (h : EvQ.runPipe (EvQ.init k) as = some s) :
    (s.q ≠ [] → 0 < s.fd ∨ (∃ c ∈ s.cons, c ≠ .idle) ∨ (∃ p ∈ s.prods, p = .exch ∨ p = .notify)) ∧
    ((∀ p ∈ s.prods, ∃ r, p = .done r) → (∀ c ∈ s.cons, c = .idle) → s.fd = 0 → s.q = []) ∧
    s.accepted = s.seen ++ s.q := by
  have hi := EvQ.invP_run as _ _ (EvQ.invP_init k) h
  have key : s.q ≠ [] → 0 < s.fd ∨ (∃ c ∈ s.cons, c ≠ .idle) ∨ (∃ p ∈ s.prods, p = .exch ∨ p = .notify) := by
    intro hq
    rcases hi.look hq with h | h | h | h | h | h | h
    · exact .inl h
    · exact .inr (.inr ⟨_, h, .inr rfl⟩)
    · exact .inr (.inr ⟨_, h, .inl rfl⟩)
    · exact .inr (.inl ⟨_, h, by simp⟩)
    · exact .inr (.inl ⟨_, h, by simp⟩)
    · exact .inr (.inl ⟨_, h, by simp⟩)
    · exact .inr (.inl ⟨_, h, by simp⟩)
  refine ⟨key, ?_, hi.fifo⟩
  intro hp hc hf
  apply Classical.byContradiction
  intro hq
  rcases key hq with h | ⟨c, hm, h⟩ | ⟨p, hm, h⟩
  · omega
  · exact h (hc c hm)
  · obtain ⟨r, hr⟩ := hp p hm; subst hr; simp at h

/-- An element is enqueued while the consumer is resetting; it is dequeued, and a further read ends the reset. -/
example : (EvQ.runPipe (α := Nat) (EvQ.init 1) [.call 1, .prod 0, .prod 0, .prod 0, .fire 0, .cons 0, .call 2, .prod 1, .prod 1, .cons 0, .cons 0, .deq 0, .deq 0, .empty 0]).map
    (fun s => (s.q, s.seen, s.fd, s.cons)) = some ([], [1, 2], 0, [.idle]) := by decide

end Salticidae
