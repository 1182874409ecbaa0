import Verif.Lemmas.RacesServer
/-
Property C96: no data race on the state of a connection.
-/
namespace Salticidae
open Races Spec.Races
open Pool (Cfg)

/-! ## C96: every thread of the network and of the program works on a connection -/

/-- The full statement of C96: with or without TLS, with any number of workers, whatever the peers and the program do and however the threads are scheduled, two accesses to the same part of
a connection of which one is a write are ordered by happens-before. -/
def C96_statement : Prop := ∀ (g : Cfg) (as : List Act) (r : St), run g init as = some r → RaceFree r.log

instance Races.decEv : DecidableEq Races.Ev := inferInstance
instance Races.decShape : DecidableEq (Thread × Option Nat × Bool) := inferInstance

/-- Two workers.  A client is accepted, so that worker 0 has one connection.  The program connects and, while the attempt is in progress, terminates the new connection.  The dispatcher finds it without worker and
queues the termination for itself; before that closure is executed the attempt succeeds and the connection is given to worker 1, which sets up the socket while the dispatcher tears the connection down. -/
def Races.lateRun : List Act := [
  .pool (.accept 6), .pool (.exec 0 false), .pool (.connect 5 true), .pool (.terminate 1), .pool (.exec 0 false), .pool (.exec 0 false),
  .pool (.connReady 1), .pool (.exec 1 false), .pool (.exec 0 false)]

/-- The log of that run: the last two events, of worker 1 and of the dispatcher, both write the socket's event and the buffers of connection 1. -/
theorem C96_violated_terminate : ∃ r a b, run ⟨false, 2⟩ init lateRun = some r ∧ r.log[7]? = some a ∧ r.log[8]? = some b ∧
    a.thread = .w 1 ∧ b.thread = .w 0 ∧ Conflict a b (1, .sock) ∧ ¬ HB r.log 7 8 := by
  have h : (run ⟨false, 2⟩ init lateRun).map (fun r => (shape r.log, (r.log.drop 7 : List Races.Ev))) = some (
      [(.w 0, none, false), (.w 0, some 0, false), (.w 0, none, false), (.other 3, none, false), (.w 0, some 1, false), (.w 0, some 3, false),
        (.w 0, none, false), (.w 1, some 6, false), (.w 0, some 5, false)],
      [{ thread := .w 1, waited := some 6, reads := [(1, .info), (1, .worker)], writes := [(1, .sock)] },
        { thread := .w 0, waited := some 5, reads := [(1, .worker), (1, .info)], writes := [(1, .sock), (1, .evconn)] }]) := by decide +kernel
  obtain ⟨r, h1, h2⟩ := Option.map_eq_some_iff.mp h
  obtain ⟨h2, h3⟩ := Prod.mk.inj h2
  have h7 : r.log[7]? = (r.log.drop 7)[0]? := by simp
  have h8 : r.log[8]? = (r.log.drop 7)[1]? := by simp
  rw [h3] at h7 h8
  refine ⟨r, _, _, h1, h7, h8, rfl, rfl, .inl ⟨by simp, .inl (by simp)⟩, fun hb => ?_⟩
  have := hb_closed (L := r.log) (fun i => i == 7) (closed_shape h2 (by decide +kernel)) hb rfl
  simp at this

/-- With TLS.  connect_sync returns the connection as soon as the attempt is in progress.  The program asks it for the certificate of the peer while the worker finishes the handshake and stores that certificate. -/
def Races.certRun : List Act := [
  .pool (.connect 5 true), .sync 0, .pool (.connReady 0), .pool (.exec 0 false), .pool (.hsDone 0), .getCert 0]

/-- The program's look at the peer's certificate and the worker's store of it are not ordered. -/
theorem C96_violated_cert : ∃ r a b, run ⟨true, 1⟩ init certRun = some r ∧ r.log[4]? = some a ∧ r.log[5]? = some b ∧
    a.thread = .w 0 ∧ b.thread = .user ∧ Conflict a b (0, .cert) ∧ ¬ HB r.log 4 5 := by
  have h : (run ⟨true, 1⟩ init certRun).map (fun r => (shape r.log, r.log.drop 4)) = some (
      [(.w 0, none, false), (.user, some 0, false), (.w 0, none, false), (.w 0, some 2, false), (.w 0, none, false), (.user, none, false)],
      [{ thread := .w 0, reads := [(0, .info), (0, .worker)], writes := [(0, .sock), (0, .cert)] },
        { thread := .user, reads := [(0, .cert)] }]) := by decide +kernel
  obtain ⟨r, h1, h2⟩ := Option.map_eq_some_iff.mp h
  obtain ⟨h2, h3⟩ := Prod.mk.inj h2
  have h7 : r.log[4]? = (r.log.drop 4)[0]? := by simp
  have h8 : r.log[5]? = (r.log.drop 4)[1]? := by simp
  rw [h3] at h7 h8
  refine ⟨r, _, _, h1, h7, h8, rfl, rfl, .inl ⟨by simp, .inr (by simp)⟩, fun hb => ?_⟩
  have := hb_closed (L := r.log) (fun i => i == 4) (closed_shape h2 (by decide +kernel)) hb rfl
  simp at this

/-- The full statement fails. -/
theorem C96_violated : ¬ C96_statement := by
  intro h
  obtain ⟨r, a, b, h1, h2, h3, _, _, h4, h5⟩ := C96_violated_terminate
  exact h5 (h _ _ r h1 7 8 a b _ (by omega) h2 h3 h4)

/-- The two situations above are avoided: an attempt does not succeed while the dispatcher has queued the termination of that very connection, and with TLS the program asks for the certificate
of a connection only once its connection callback has been called for it. -/
def Races.Proper (g : Cfg) (as : List Act) : Prop := ∀ p ∈ trace g init as,
  (∀ c, p.2 = .pool (.connReady c) → .dterm c ∉ p.1.pool.wq 0) ∧ (∀ c, p.2 = .getCert c → g.tls = false ∨ (p.1.pool.conn c).cbs ≠ [])

/-- In such a run there is no data race.  (Missing: the two situations excluded by `Proper`, where there is one.) -/
theorem C96_race_free_partial (g : Cfg) (as : List Act) (r : St) (h : run g init as = some r) (hp : Proper g as) : RaceFree r.log :=
  good_free (good_run as init r (.inl ⟨rfl, all_init g⟩) hp h)

/-- A program that only accepts connections has none at all.  (Missing: programs that connect.) -/
theorem C96_server_partial (g : Cfg) (as : List Act) (r : St) (h : run g init as = some r)
    (hc : ∀ a ∈ as, ∀ fd ok, a ≠ .pool (.connect fd ok)) : RaceFree r.log := by
  refine C96_race_free_partial g as r h (server_proper as init ⟨?_, fun _ => rfl⟩ hc (by rw [h]; simp))
  intro c; exact ⟨rfl, rfl⟩

/-- A run with two workers and TLS, one connection accepted and one initiated, handshakes, traffic, the callbacks, the certificate read, a termination and `stop`. -/
def Races.sampleRun : List Act := [
  .pool (.accept 6), .pool (.exec 0 false), .pool (.connect 5 true), .sync 1, .getInfo 1, .pool (.connReady 1), .pool (.exec 1 false),
  .pool (.hsDone 0), .pool (.hsDone 1), .pool (.exec 0 false), .pool (.exec 0 false), .pool (.user true), .pool (.user true), .getCert 1, .getCert 0,
  .pool (.exec 0 false), .pool (.exec 1 false), .pool (.readable 1), .pool (.terminate 1), .pool (.exec 0 false), .pool (.exec 1 false), .pool (.exec 0 false),
  .stop, .pool (.user false), .getCert 0]

instance Races.decCond (g : Cfg) (r : St) (a : Act) : Decidable ((∀ c, a = .pool (.connReady c) → .dterm c ∉ r.pool.wq 0) ∧
    (∀ c, a = .getCert c → g.tls = false ∨ (r.pool.conn c).cbs ≠ [])) :=
  match a with
  | .pool (.connReady c) => decidable_of_iff (.dterm c ∉ r.pool.wq 0) (by simp)
  | .getCert c => decidable_of_iff (g.tls = false ∨ (r.pool.conn c).cbs ≠ []) (by simp)
  | .sync _ | .getInfo _ | .stop => isTrue (by simp)
  | .pool (.accept _) | .pool .acceptFail | .pool .listen | .pool (.connect _ _) | .pool (.connFail _ _) | .pool (.terminate _) | .pool (.exec _ _)
  | .pool (.user _) | .pool (.readable _) | .pool (.writable _) | .pool (.hsDone _) | .pool (.ioError _) | .pool (.sendBuf _) => isTrue (by simp)

instance Races.decProper (g : Cfg) (as : List Act) : Decidable (Proper g as) :=
  inferInstanceAs (Decidable (∀ p ∈ trace g init as, _))

/-- The pairs of events of different threads that access the same part of a connection, one of them to write it. -/
def Races.shared (L : List Races.Ev) : Nat :=
  ((List.range L.length).flatMap (fun j => (List.range j).filter (fun i =>
    match L[i]?, L[j]? with
    | some a, some b => a.thread != b.thread && (a.writes.any (fun x => b.writes.contains x || b.reads.contains x) || a.reads.any (fun x => b.writes.contains x))
    | _, _ => false))).length

/-- The hypotheses are met by this run, in which there are 33 such pairs. -/
example : Proper ⟨true, 2⟩ sampleRun ∧ ((run ⟨true, 2⟩ init sampleRun).map (fun r => (r.log.length, shared r.log))) = some (25, 33) := by
  constructor <;> decide +kernel

example : (run ⟨false, 2⟩ init [.pool (.accept 6), .pool (.exec 0 false), .pool (.exec 0 false), .pool (.user true), .getCert 0, .pool (.exec 0 false),
    .pool (.readable 0), .stop]).isSome = true := by decide +kernel

end Salticidae
