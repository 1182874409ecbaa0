import Verif.Lemmas.Sock
namespace Salticidae
open Sock Spec.Sock

/-! ## C91: descriptors -/

/-- After every history of calls, events and failures of system calls: nothing has been closed that the library did not have open, the application
has exactly the descriptors that it opened and did not close, and once `stop()` has returned the library has none. -/
def C91_statement : Prop := ∀ (as : List Act) (s : St), run init as = some s →
  s.bad = false ∧ (∀ fd, s.tab fd = some .app ↔ application fd as) ∧ (s.stopped = true → ∀ fd, s.tab fd ≠ some .lib)

/-- Not if the network listens: `stop()` of a MsgNetwork, PeerNetwork or ClientNetwork hides that of ConnPool and leaves the listening socket open, so that
clients still connect to it, until the network is destroyed. -/
theorem C91_violated : ¬ C91_statement := by
  intro h
  have := (h [.listen 3 80 none, .stop] _ rfl).2.2 rfl 3
  exact this rfl

/-- Nor if setsockopt or fcntl fails: `accept_client` and `_connect` throw without closing the socket, which is then open for ever. -/
theorem C91_violated_setup : ¬ C91_statement ∧
    (∃ s, run init [.connect 4 (some .option), .destroy] = some s ∧ s.tab 4 = some .lib) ∧
    (∃ s, run init [.listen 3 80 none, .accept 4 (some .option), .destroy] = some s ∧ s.tab 4 = some .lib) := by
  refine ⟨fun h => ?_, ⟨_, rfl, rfl⟩, _, rfl, rfl⟩
  exact (h [.connect 4 (some .option), .stop] _ rfl).2.2 rfl 4 rfl

/-- What does hold of every history: no stray close, nothing of the application is touched, and the library has open exactly the listening socket, the
sockets of the connections that are not terminated, and the sockets that could not be set up. -/
theorem C91_open_partial (as : List Act) (s : St) (h : run init as = some s) :
    s.bad = false ∧ (∀ fd, s.tab fd = some .app ↔ application fd as) ∧
    ∀ fd, s.tab fd = some .lib ↔
      s.lfd = some fd ∨ (∃ (i : Nat) (x : Conn), s.conns[i]? = some x ∧ x.term = false ∧ x.fd = fd) ∨ fd ∈ leaks as := by
  have hi := inv_init.run h
  rw [List.nil_append] at hi
  refine ⟨hi.bad, fun fd => ?_, hi.own⟩
  rw [run_app fd inv_init h]
  unfold application
  rw [show (init.tab fd = some Owner.app) = False from by simp [init]]

/-- Two connections that are not terminated never have the same descriptor, nor that of the listening socket. -/
theorem C91_distinct (as : List Act) (s : St) (h : run init as = some s) (i j : Nat) (x y : Conn) (hx : s.conns[i]? = some x) (hy : s.conns[j]? = some y)
    (h1 : x.term = false) (h2 : y.term = false) : s.lfd ≠ some x.fd ∧ (x.fd = y.fd → i = j) := by
  have hi := inv_init.run h
  refine ⟨fun e => (hi.l1 _ e).1 i ⟨x, hx, h1, rfl⟩, fun e => ?_⟩
  exact (hi.l2 j y.fd ⟨y, hy, h2, rfl⟩).2 i ⟨x, hx, h1, e⟩

/-- After `stop` only the listening socket and the sockets that could not be set up are open; once the network is destroyed, only the latter, and so none if
setting up never failed. -/
theorem C91_stop_partial (as : List Act) (s : St) (h : run init as = some s) :
    (s.stopped = true → ∀ fd, s.tab fd = some .lib ↔ s.lfd = some fd ∨ fd ∈ leaks as) ∧
    (s.destroyed = true → ∀ fd, s.tab fd = some .lib ↔ fd ∈ leaks as) ∧
    (s.destroyed = true → leaks as = [] → ∀ fd, s.tab fd ≠ some .lib) := by
  have hi := inv_init.run h
  rw [List.nil_append] at hi
  have h1 : s.stopped = true → ∀ fd, s.tab fd = some .lib ↔ s.lfd = some fd ∨ fd ∈ leaks as := by
    intro hs fd
    rw [hi.own]
    constructor
    · rintro (g | ⟨i, g⟩ | g)
      · exact .inl g
      · exact absurd g (hi.st hs i fd)
      · exact .inr g
    · rintro (g | g)
      · exact .inl g
      · exact .inr (.inr g)
  have h2 : s.destroyed = true → ∀ fd, s.tab fd = some .lib ↔ fd ∈ leaks as := by
    intro hd fd
    obtain ⟨hs, hl⟩ := hi.ds hd
    rw [h1 hs, hl]
    simp
  refine ⟨h1, h2, fun hd h0 fd e => ?_⟩
  rw [h2 hd, h0] at e
  cases e

/-- A history with a listening socket that is replaced by one that fails, a client, a refused connection, a connection that is closed, a file of the
application that gets the number of the connection that was closed, and destruction: only the file is open. -/
example : ∃ s, run init [.appOpen 3, .listen 4 80 none, .accept 5 none, .connect 6 none, .connFail 1 false, .terminate 0, .run 0, .appOpen 5, .run 1,
      .listen 4 81 (some .last), .connect 7 (some .last), .connect 8 none, .appClose 3, .stop, .destroy] = some s ∧
    (s.tab 3, s.tab 4, s.tab 5, s.tab 6, s.tab 7, s.tab 8) = (none, none, some .app, none, none, none) := ⟨_, rfl, rfl⟩

/-- `bad` is a close() of a descriptor that is not the library's: one that is not open (any more), or one of the application. -/
example (s : St) (fd : Nat) (h : s.tab fd ≠ some .lib) : (close s fd).bad = true := by simp [close, h]

/-! ## C92: what comes of connect() and listen() -/

/-- Once nothing is going on any more, every connect() either has led to a connection that was set up, and no error was reported for it, or exactly one
error was reported with the number that the call returned. -/
def C92_statement : Prop := ∀ (as : List Act) (s : St), run init as = some s → Quiet s → ∀ k : Nat, k < s.calls →
  ((∃ x ∈ s.conns, x.call = some k ∧ x.fed = true) ∧ s.out.count (.err k) = 0) ∨
  ((∀ x ∈ s.conns, x.call = some k → x.fed = false) ∧ s.out.count (.err k) = 1)

/-- Not if the system refuses at once (connect() fails with an error that is not EINPROGRESS): the connection is removed and no error is reported. -/
theorem C92_violated_silent : ¬ C92_statement := by
  intro h
  have := h [.connect 4 (some .last), .run 0] _ rfl (by unfold Quiet; decide) 0 (by decide)
  revert this; decide

/-- Not if the other side refuses: the error is reported with the number -1, so that it cannot be told which call failed; and as the socket goes on
being polled until the connection is removed, it may be reported more than once. -/
theorem C92_violated_id : ¬ C92_statement ∧
    (∃ s, run init [.connect 4 none, .connFail 0 false, .connFail 0 false, .run 0, .run 0] = some s ∧ Quiet s ∧
      s.out = [.err (-1), .err (-1), .gone 0]) := by
  refine ⟨fun h => ?_, _, rfl, by unfold Quiet; decide, rfl⟩
  have := h [.connect 4 none, .connFail 0 true, .run 0] _ rfl (by unfold Quiet; decide) 0 (by decide)
  revert this; decide

/-- What does hold of every history: a connect() that fails before it has a socket that is set up is reported exactly once with its number and makes no
connection; any other makes exactly one connection, and nothing is reported with its number; and the errors reported with number -1 are exactly as
many as there were failures of accepting or of establishing a connection. -/
theorem C92_connect_partial (as : List Act) (s : St) (h : run init as = some s) :
    s.calls = (connects as).length ∧
    (∀ (k : Nat) (f : Option Fail), (connects as)[k]? = some f →
      if f = some .socket ∨ f = some .option then s.out.count (.err k) = 1 ∧ s.conns.countP (·.call = some k) = 0
      else s.out.count (.err k) = 0 ∧ s.conns.countP (·.call = some k) = 1) ∧
    s.out.count (.err (-1)) = as.countP anonymous := by
  have hr := rep_init.run h
  rw [List.nil_append, Nat.zero_add] at hr
  refine ⟨hr.calls, fun k f hk => ?_, hr.anon⟩
  rw [hr.err, hr.conn, hk]
  rcases f with _ | f
  · simp [early, late]
  · cases f <;> simp [early, late]

/-- And once nothing is going on any more, a connection either was set up or is gone; as long as the network runs the handler is told exactly once of
every connection that is gone, and of no other. -/
theorem C92_end_partial (as : List Act) (s : St) (h : run init as = some s) :
    (Quiet s → ∀ x ∈ s.conns, x.fed = true ∨ x.term = true) ∧
    (∀ c, s.out.count (.gone c) ≤ 1) ∧
    (s.stopped = false → ∀ c x, s.conns[c]? = some x → s.out.count (.gone c) = if x.term then 1 else 0) := by
  have hr := rep_init.run h
  refine ⟨fun hq x hx => ?_, hr.once, fun hs c x hx => ?_⟩
  · rcases hr.prog x hx with g | g | g | g
    · rw [(hq x hx).1] at g; cases g
    · exact .inl g
    · rw [(hq x hx).2] at g; omega
    · exact .inr g
  · rw [hr.gone hs, hx]; rfl

/-- The network accepts on the port of the last listen() that was successful, on a socket of its own, and on no other; a later listen() that fails and a
failure of accept() both end that. -/
theorem C92_listen (as : List Act) (s : St) (h : run init as = some s) :
    s.evl.map (·.2) = listening as ∧ ∀ fd port, s.evl = some (fd, port) → s.lfd = some fd ∧ s.tab fd = some .lib := by
  have hr := rep_init.run h
  have hi := inv_init.run h
  exact ⟨hr.port, fun fd port e => ⟨hi.ev _ e, (hi.own fd).mpr (.inl (hi.ev _ e))⟩⟩

/-- Three connects: one without a socket, one that is established, one that times out; and a listener that is moved and then lost. -/
example : ∃ s, run init [.listen 3 80 none, .connect 4 (some .socket), .connect 4 none, .connect 5 none, .connReady 0, .listen 3 81 none,
      .accept 6 none, .connFail 1 true, .run 1, .accept 7 (some .socket)] = some s ∧ Quiet s ∧
    s.out = [.err 0, .err (-1), .gone 1, .err (-1)] ∧ s.conns.map (fun x => (x.call, x.fed, x.term)) =
      [(some 1, true, false), (some 2, false, true), (none, true, false)] ∧ s.evl = none ∧ s.lfd = some 3 :=
  ⟨_, rfl, by unfold Quiet; decide, rfl, rfl, rfl, rfl⟩

end Salticidae
