import Verif.Spec.PoolMsg
import Verif.Lemmas.PoolMsg
import Verif.Props.Pool
namespace Salticidae
open Pool PoolMsg Spec.PoolMsg

theorem mreaches_inv {g : Cfg} {as : List MAct} {s : MSt} (h : MReaches g as s) : MInv g s :=
  minv_run as minit s (minv_init g) h

theorem mreaches_rd {g : Cfg} {as : List MAct} {s : MSt} (h : MReaches g as s) : MRd s :=
  mrd_run as minit s (minv_init g) (by intro c hc; simp [minit] at hc) h

/-! ## C107: handlers run between the connected and the disconnected callback -/

/-- C107.  The full property: every handler call for a connection comes after the callback was told that it
is connected and before it is told that it is gone. -/
def C107_statement : Prop := ∀ (g : Cfg) (as : List MAct) (s : MSt), MReaches g as s → ∀ c,
  AfterConnected c s.log ∧ BeforeDisconnected c s.log

/-- A client sends two messages and the connection is terminated before the user's thread has turned to
them; the thread then serves the callback first. -/
def lateHandler : List MAct := [.pool (.accept 7), .pool (.exec 0 false), .pool (.exec 0 false), .pool (.user true), .pool (.exec 0 false),
  .read 0 2 false, .handle, .pool (.terminate 0), .pool (.exec 0 false), .pool (.exec 0 false), .pool (.exec 0 false),
  .pool (.user true), .handle]

/-- The code does not have it: a handler is called for a connection the user has been told is gone. -/
theorem C107_violated : ¬ C107_statement := by
  intro h
  have h1 : ∃ s, MReaches ⟨false, 1⟩ lateHandler s ∧ s.log = [.cb 0 true, .msg 0, .cb 0 false, .msg 0] := by
    refine ⟨_, rfl, ?_⟩; decide
  obtain ⟨s, hs, hl⟩ := h1
  exact (h _ _ s hs 0).2 [.cb 0 true, .msg 0, .cb 0 false] [] (by rw [hl]; rfl) (by simp)

/-- ... with TLS too. -/
theorem C107_violated_tls : ∃ (as : List MAct) (s : MSt), MReaches ⟨true, 2⟩ as s ∧ s.log = [.cb 0 true, .cb 0 false, .msg 0] := by
  refine ⟨[.pool (.accept 7), .pool (.exec 0 false), .pool (.hsDone 0), .pool (.exec 0 false), .pool (.user true), .pool (.exec 0 false),
    .read 0 1 false, .pool (.ioError 0), .pool (.exec 0 false), .pool (.exec 0 false), .pool (.user true), .handle], _, rfl, ?_⟩
  decide

/-- For every schedule, a handler for a connection is called only after the callback was told that it is
connected. -/
theorem C107_after_connected (g : Cfg) (as : List MAct) (s : MSt) (h : MReaches g as s) (c : Nat) : AfterConnected c s.log :=
  (mreaches_inv h).ord c

/-- For every schedule with TLS, handlers are called only for connections the callback accepted. -/
theorem C107_tls_accepted (g : Cfg) (hg : g.tls = true) (as : List MAct) (s : MSt) (h : MReaches g as s) (c : Nat)
    (hm : .msg c ∈ s.log) : (s.st.conn c).verdict = some true := by
  obtain ⟨hc, hr⟩ := mreaches_rd h c (.inr (.inr hm))
  exact ((mreaches_inv h).v1.v1 c hc).tlsR hg (.inr hr)

/-- For every schedule: once the callback was told that a connection is gone, only messages that were waiting
for the user's thread by then can still reach a handler.  Missing: that there are none. -/
theorem C107_backlog_partial (g : Cfg) (as bs : List MAct) (s s' : MSt) (h : MReaches g as s) (h' : MReaches g (as ++ bs) s') (c : Nat)
    (hd : .cb c false ∈ s.log) : handled s' c + waiting s' c ≤ handled s c + waiting s c := by
  have h1 : mrun g minit (as ++ bs) = some s' := h'
  rw [mrun_append, show mrun g minit as = some s from h] at h1
  exact backlog_run bs s s' (mreaches_inv h) h1 hd

/-- The property for every schedule in which no message of the connection waits when the user's thread tells
the callback that it is gone.  Missing: schedules in which one does, as in `C107_violated`. -/
theorem C107_ordered_partial (g : Cfg) (as : List MAct) (s : MSt) (h : MReaches g as s) (c : Nat)
    (hq : ∀ bs cs r s1, as = bs ++ .pool (.user r) :: cs → MReaches g bs s1 → s1.st.uq.head? = some ⟨c, false⟩ → waiting s1 c = 0) :
    AfterConnected c s.log ∧ BeforeDisconnected c s.log :=
  ⟨C107_after_connected g as s h c,
    order_run as minit s (minv_init g) h (by simp [minit]) (by simp [minit]) hq⟩

/-- The same client, served in time. -/
def timelyHandler : List MAct := [.pool (.accept 7), .pool (.exec 0 false), .pool (.exec 0 false), .pool (.user true), .pool (.exec 0 false),
  .read 0 2 true, .handle, .retry 0 0 false, .pool (.terminate 0), .pool (.exec 0 false), .pool (.exec 0 false), .handle, .drop,
  .pool (.exec 0 false), .pool (.user true)]

example : ∃ s, MReaches ⟨false, 1⟩ timelyHandler s ∧ s.log = [.cb 0 true, .msg 0, .msg 0, .cb 0 false] ∧ waiting s 0 = 0 := by
  refine ⟨_, rfl, ?_⟩; decide

/-- It meets the hypothesis of `C107_ordered_partial`. -/
example : ∀ bs cs r s1, timelyHandler = bs ++ .pool (.user r) :: cs → MReaches ⟨false, 1⟩ bs s1 →
    s1.st.uq.head? = some ⟨0, false⟩ → waiting s1 0 = 0 := by
  intro bs cs r s1 hb hr hu
  have hlen : bs.length < 15 := by
    have := congrArg List.length hb
    simp [timelyHandler] at this
    omega
  have hbs : bs = timelyHandler.take bs.length := by rw [hb]; simp
  have hall : ∀ n : Fin 15, ∀ s1, mrun ⟨false, 1⟩ minit (timelyHandler.take n) = some s1 → s1.st.uq.head? = some ⟨0, false⟩ →
      s1.mq.count 0 = 0 := by
    have hd : ∀ n : Fin 15, ((mrun ⟨false, 1⟩ minit (timelyHandler.take n)).all
        (fun s1 => !(s1.st.uq.head? == some ⟨0, false⟩) || s1.mq.count 0 == 0)) = true := by decide
    intro n s1 h1 h2
    have := hd n
    rw [h1] at this
    simpa [h2] using this
  rw [hbs] at hr
  exact hall ⟨bs.length, hlen⟩ s1 hr hu

/-- A schedule for `C107_backlog_partial`: three messages wait when the callback runs; the third is dropped. -/
example : ∃ s s', MReaches ⟨false, 1⟩ (lateHandler.take 5 ++ [.read 0 3 true] ++ (lateHandler.drop 7).take 5) s ∧
    MReaches ⟨false, 1⟩ ((lateHandler.take 5 ++ [.read 0 3 true] ++ (lateHandler.drop 7).take 5) ++ [.handle, .handle, .drop]) s' ∧
    .cb 0 false ∈ s.log ∧ handled s 0 = 0 ∧ waiting s 0 = 3 ∧ handled s' 0 = 2 ∧ waiting s' 0 = 0 := by
  refine ⟨_, _, rfl, rfl, ?_⟩; decide

end Salticidae
