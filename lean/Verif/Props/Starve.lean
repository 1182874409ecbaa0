import Verif.Props.ConnIO
/-
Property theorems for the socket callback's choice between receiving and sending (C85).
-/
namespace Salticidae
open ConnIO
open ConnIO.Demo

/-- What happens between two looks of the event loop at the socket: data arrives; then the loop calls
back, the socket being writable and its kernel buffer taking at least one byte (`k + 1`). -/
structure Starve.Round where
  arrives : List Byte
  ks : List Nat
  k : Nat
  rs : List SendRes

def Starve.round (cfg : Cfg) (q : Nat → Bool) (c : St cfg.ow) (r : Starve.Round) : St cfg.ow :=
  let c := step cfg q c (.arrive r.arrives)
  step cfg q c (dispatch c.reportsRead r.ks (.sent (r.k + 1) :: r.rs))

/-- The full statement of C85: a live connection that has data to send and waits for writability sends
something after finitely many callbacks that find the socket writable (or is being terminated),
whatever the peer sends meanwhile. -/
def C85_statement : Prop :=
  ∀ (cfg : Cfg) (q : Nat → Bool) (m0 : Msg cfg.ow) (evs : List Ev), cfg.Ok →
    let c := run cfg q (init m0) evs
    c.active = true → c.closed = false → c.killed = false → c.crashed = false → c.writeOn = true →
    (∃ s l, c.sendq = s :: l ∧ s ≠ []) →
    ∃ N, ∀ rounds : List Starve.Round, N ≤ rounds.length →
      let d := rounds.foldl (Starve.round cfg q) c
      d.killed = true ∨ d.crashed = true ∨ c.sent.length < d.sent.length

namespace Starve

abbrev cf : Cfg := cfg 4 64 4
/-- The message received in each round, after its header, and complete. -/
def hdr : Msg cf.ow := ⟨0, 7, 1, 0, [], true⟩
def got : Msg cf.ow := ⟨0, 7, 1, 0, [2], false⟩
def b1 : SegBuffer := SegBuffer.empty.push (good 2).enc

theorem parseIter_got (c : St cf.ow) (h1 : c.inPayload = false) (h2 : c.buf = b1) :
    parseIter cf room c = ({ c with
      buf := SegBuffer.empty, msg := got, inPayload := false, tries := c.tries + 1,
      delivered := c.delivered ++ [got] }, none) := by
  have e1 : ¬ b1.size < Msg.headerSize cf.ow := by decide
  have e2 : Msg.ofHeader cf.e cf.ow (DataStream.ofBytes (b1.pop (Msg.headerSize cf.ow)).1) = some hdr := rfl
  have e3 : ¬ hdr.length.toNat > cf.maxMsg := by decide
  have e4 : ¬ (b1.pop (Msg.headerSize cf.ow)).2.size < hdr.length.toNat := by decide
  have e5 : hdr.setPayload ((b1.pop (Msg.headerSize cf.ow)).2.pop hdr.length.toNat).1 = got := by decide
  have e6 : ((b1.pop (Msg.headerSize cf.ow)).2.pop hdr.length.toNat).2 = SegBuffer.empty := by rfl
  have e7 : ¬ got.verifyChecksum cf.e cf.H ≠ some true := by decide
  unfold parseIter
  rw [h1, h2, if_neg (by simp), if_neg e1]
  simp only [e2]
  rw [if_neg e3]
  unfold parsePayload
  simp only
  rw [if_neg e4]
  simp only [e5, e6]
  rw [if_neg e7]
  rfl

theorem parseLoop_got (c : St cf.ow) (h1 : c.inPayload = false) (h2 : c.buf = b1) (n : Nat) :
    parseLoop cf room (n + 2) c = ({ c with
      buf := SegBuffer.empty, msg := got, inPayload := false, tries := c.tries + 1,
      delivered := c.delivered ++ [got] }, some .done) := by
  unfold parseLoop
  rw [parseIter_got c h1 h2]
  simp only
  unfold parseLoop parseIter
  rfl

/-- A live connection with nothing received pending that has not sent anything. -/
structure Hungry (c : St cf.ow) : Prop where
  buf : c.buf = SegBuffer.empty
  inPayload : c.inPayload = false
  sleep : c.sleep = false
  readOn : c.readOn = true
  sock : c.sock = []
  fin : c.fin = false
  closed : c.closed = false
  crashed : c.crashed = false
  killed : c.killed = false
  sent : c.sent = []

theorem hungry_round {c : St cf.ow} (h : Hungry c) : Hungry (round cf room c ⟨(good 2).enc, [], 0, []⟩) := by
  obtain ⟨g1, g2, g3, g4, g5, g6, g7, g8, g9, g10⟩ := h
  unfold round
  generalize hd : step cf room c (.arrive (good 2).enc) = d
  have he : d = { c with sock := (good 2).enc, arrived := c.arrived ++ (good 2).enc } := by
    rw [← hd]
    simp [step, g8, g6, g5]
  have hr : d.reportsRead = true := by
    rw [he]
    simp only [St.reportsRead, g4, g6]
    rfl
  simp only [hr, dispatch, if_true, step]
  have hl : recvLoop cf (cf.maxSegs + 1) [] d = ({ d with buf := b1, sock := [] }, .stop) := by
    unfold recvLoop
    rw [he]
    simp only [g1]
    rfl
  rw [if_neg (by rw [he]; simp [g8]), if_pos (by rw [he]; simp [g4, g7])]
  simp only [recvData, hl, onReadLoop]
  rw [if_neg (by rw [he]; simp [g3])]
  have hb : ∀ b, bufBytes { d with buf := b1, sock := [], readyRecv := b } + 2 = 14 + 2 := by intro b; rfl
  rw [hb, parseLoop_got _ (by rw [he]; exact g2) rfl]
  simp only [caught]
  rw [he]
  exact ⟨rfl, rfl, g3, g4, rfl, g6, g7, g8, g9, g10⟩

end Starve

/-- C85 is violated: while a message arrives before every callback, each callback only reads, and
nothing is ever sent. -/
theorem C85_violated : ¬ C85_statement := by
  intro h
  obtain ⟨N, hN⟩ := h Starve.cf room m0 [.activate, .write [1] true] ⟨by decide, by decide⟩
    (by decide) (by decide) (by decide) (by decide) (by decide) ⟨[1], [], by decide, by decide⟩
  have key : ∀ n (c : St Starve.cf.ow), Starve.Hungry c →
      Starve.Hungry ((List.replicate n (⟨(good 2).enc, [], 0, []⟩ : Starve.Round)).foldl (Starve.round Starve.cf room) c) := by
    intro n
    induction n with
    | zero => intro c h; exact h
    | succ n ih =>
      intro c h
      rw [List.replicate_succ, List.foldl_cons]
      exact ih _ (Starve.hungry_round h)
  have h0 := key N (run Starve.cf room (init m0) [.activate, .write [1] true])
    ⟨rfl, rfl, rfl, rfl, rfl, rfl, rfl, rfl, rfl, rfl⟩
  have h1 := hN (List.replicate N ⟨(good 2).enc, [], 0, []⟩) (by simp)
  simp only [h0.killed, h0.crashed, h0.sent, List.length_nil, Nat.not_lt_zero, Bool.false_eq_true, or_self] at h1

/-- C85, proved part: a callback that finds nothing to read (no data, or reading suspended because the
receive buffer is full) sends at least one byte.  Missing: callbacks that find data. -/
theorem C85_send_partial (cfg : Cfg) (q : Nat → Bool) (m0 : Msg cfg.ow) (evs : List Ev)
    (ks : List Nat) (k : Nat) (rs : List SendRes) :
    let c := run cfg q (init m0) evs
    c.closed = false → c.crashed = false → c.writeOn = true → (∃ s l, c.sendq = s :: l ∧ s ≠ []) →
    c.reportsRead = false →
    c.sent.length < (step cfg q c (dispatch c.reportsRead ks (.sent (k + 1) :: rs))).sent.length := by
  intro c h1 h2 h3 ⟨s, l, h4, h5⟩ h6
  rw [h6]
  simp only [dispatch, Bool.false_eq_true, if_false, step]
  rw [if_neg (by simp [h2]), if_pos ⟨h3, by simp [h1]⟩, sendData, h4]
  exact send_progress c s l h5 (k + 1) (by omega) rs

example : let c := run (cfg 4 64 4) room (init m0) [.activate, .write [1, 2] true]
    c.closed = false ∧ c.crashed = false ∧ c.writeOn = true ∧ c.sendq = [[1, 2]] ∧ c.reportsRead = false ∧
    (step (cfg 4 64 4) room c (dispatch c.reportsRead [] [.sent 1])).sent = [1] := by decide

/-- The other direction is not starved: a callback that finds data to read reads, whatever there is to
send. -/
theorem C85_read_first (cfg : Cfg) (ok : cfg.Ok) (q : Nat → Bool) (m0 : Msg cfg.ow) (evs : List Ev)
    (ks : List Nat) (rs : List SendRes) :
    let c := run cfg q (init m0) evs
    c.crashed = false → c.sock ≠ [] → c.reportsRead = true → c.buf.len < cfg.maxSegs → ks.head? ≠ some 0 →
    (step cfg q c (dispatch c.reportsRead ks rs)).sock.length < c.sock.length := by
  intro c h1 h2 h3 h4 h5
  have hr : c.readOn = true := by
    simp only [St.reportsRead, Bool.and_eq_true] at h3; exact h3.1
  rw [h3]
  exact C22_read_progress cfg ok q m0 evs ks h2 hr h1 h4 h5

end Salticidae
