import Verif.Lemmas.Fatal
import Verif.Spec.Fatal
import Verif.Props.Pool
/-!
C117: connections and fatal errors.
-/
namespace Salticidae
open Fatal Spec.Fatal

/-! ### C117 -/

/-- A connection that is accepted or made is not lost: once all threads have done what there was to do, its attempt or its handshake is not finished, or the connection callback has been called for it
(`connected`, or `disconnected` when it could not be set up).  Fatal errors are among what may happen. -/
def C117_statement : Prop := ∀ (g : Pool.Cfg) (as : List HAct) (s : HSt), hrun g hinit as = some s → Pool.Quiet s.p →
  ∀ c, c < s.p.n → Pending s c ∨ Told s c

/-- It is so as long as no fatal error has occurred.  Missing: `C117_violated`. -/
theorem C117_told_partial (g : Pool.Cfg) (as : List HAct) (s : HSt) (h : hrun g hinit as = some s) (hf : .fatal ∉ as) (hq : Pool.Quiet s.p)
    (c : Nat) (hc : c < s.p.n) : Pending s c ∨ Told s c := by
  obtain ⟨q, l, e, hl, bs, hr⟩ := sim_run (sim_init g) h
  have hd := no_fatal h rfl hf
  have := hl hd
  subst this
  rw [pre_nil] at e
  subst e
  obtain ⟨_, r2⟩ := reached hr
  rcases (r2 c hc).2.way with h | h | h | ⟨w, h⟩ | h | h
  · have k := (C47_torn_down_once g bs s.p hr c hc).2.2.2.2.2 hq h
    refine .inr (fun e => ?_)
    have := k.2.2.2.1
    rw [e] at this
    simp at this
  · exact .inl (.inl h)
  · exact .inl (.inr h)
  · rcases h with h | h <;>
    · have := (List.mem_filter.1 h).1
      rw [hq.1 w] at this; cases this
  · have := (List.mem_filter.1 h).1
    rw [hq.2] at this; cases this
  · refine .inr (fun e => ?_)
    have h : true ∈ (s.p.conn c).cbs := h
    rw [e] at h; cases h

/-- The code does not have it: after a fatal error the pool accepts a client, of which the program never hears. -/
theorem C117_violated : ¬ C117_statement := by
  intro h
  have hw : ∀ s, hrun ⟨false, 1⟩ hinit [.fatal, .pool (.accept 7), .drop] = some s → Pool.Quiet s.p ∧ 0 < s.p.n ∧ ¬ (Pending s 0 ∨ Told s 0) := by
    intro s hs
    cases hs
    refine ⟨⟨fun w => ?_, rfl⟩, by decide, ?_⟩
    · by_cases e : w = 0
      · subst e; rfl
      · simp [Pool.upd, Pool.post, Pool.init, hinit, e, Pool.selectWorker, Pool.selectLoop, Pool.loads]
    · rintro ((h | h) | h)
      · exact absurd h (by decide)
      · exact absurd h (by decide)
      · exact h rfl
  cases e : hrun ⟨false, 1⟩ hinit [.fatal, .pool (.accept 7), .drop] with
  | none => cases e
  | some s =>
    obtain ⟨h1, h2, h3⟩ := hw s e
    exact h3 (h _ _ s e h1 0 h2)

/-- So it is for every client accepted after a fatal error, whatever happens before stop(): the program is not told, nothing is read from it, and it is not closed.  Nor is any other connection closed
from then on, although the program, or an error, terminates it. -/
theorem C117_violated_forever (g : Pool.Cfg) (as bs : List HAct) (s t : HSt) (hs : hrun g hinit as = some s) (hd : .fatal ∈ as) (ht : hrun g s bs = some t) :
    (∀ c, s.p.n ≤ c → c < t.p.n → (t.p.conn c).cbs = [] ∧ (t.p.conn c).reads = 0 ∧ (t.p.conn c).closed = 0) ∧
    ∀ c, c < s.p.n → (t.p.conn c).closed = (s.p.conn c).closed := by
  obtain ⟨q, hq⟩ := sim_run (sim_init g) hs
  have hdead : s.dead = true := by
    clear ht hq
    suffices hh : ∀ (as : List HAct) (r : HSt) (q : Pool.St), Sim g r q → (r.dead = true ∨ .fatal ∈ as) → hrun g r as = some s → s.dead = true from
      hh as hinit _ (sim_init g) (.inr hd) hs
    intro as
    induction as with
    | nil => intro r q _ h hr; cases hr; simpa using h
    | cons a as ih =>
      intro r q hsim h hr
      simp only [hrun, Option.bind_eq_some_iff] at hr
      obtain ⟨u, hu, hr⟩ := hr
      obtain ⟨h1, q', hq', _⟩ := sim_step hsim hu
      refine ih u q' hq' ?_ hr
      rcases h with h | h
      · exact .inl (h1 h)
      · rcases List.mem_cons.1 h with h | h
        · subst h; cases hu; exact .inl rfl
        · exact .inr h
  obtain ⟨q', hq', _, _, h1, h2⟩ := after_run s.p.n (fun c => (s.p.conn c).closed) hq hdead (Nat.le_refl _) (fun _ _ => rfl) (fun c a b => by omega) ht
  refine ⟨fun c a b => ?_, h1⟩
  have k := h2 c a b
  obtain ⟨l, e, _, bs, hr⟩ := hq'
  have hn : c < q'.n := by rw [e]; exact b
  have hx : (Pool.view q' c).x = t.p.conn c := by rw [e]; rfl
  obtain ⟨r1, r2⟩ := reached hr
  have hv := (r2 c hn).1.cbsT
  have v1 := r1.v1 c hn
  rw [k.cbs] at hv
  have hv : (Pool.view q' c).x.verdict = none := by
    cases e : (Pool.view q' c).x.verdict with
    | none => rfl
    | some r => rw [e] at hv; simp at hv
  rw [← hx]
  refine ⟨k.cbs, ?_, k.open'⟩
  apply Classical.byContradiction
  intro hne
  cases ht : g.tls with
  | true => have := v1.tlsR ht (.inr (by omega)); rw [hv] at this; cases this
  | false => exact (v1.ntls ht).2 (.inr (.inr (by omega))) hv

/-- What holds in spite of fatal errors: until stop() no connection is torn down or closed twice, nor reported connected or disconnected twice, and at stop() each one is closed that is not, so that
every connection has been closed exactly once.  (Its worker hook may have run twice, see C71.) -/
theorem C117_once (g : Pool.Cfg) (as : List HAct) (s : HSt) (h : hrun g hinit as = some s) (c : Nat) (hc : c < s.p.n) :
    (s.p.conn c).wDown ≤ 1 ∧ (s.p.conn c).dDown ≤ 1 ∧ (s.p.conn c).closed ≤ 1 ∧ (s.p.conn c).cbs.count false ≤ 1 ∧ (s.p.conn c).cbs.count true ≤ 1 ∧ s.p.ub = false ∧
    ((stopped s).conn c).closed = 1 ∧ ((stopped s).conn c).dDown = 1 ∧ ((stopped s).conn c).wDown ∈ [1, 2] := by
  obtain ⟨q, l, e, _, bs, hr⟩ := sim_run (sim_init g) h
  have ec : q.conn = s.p.conn ∧ q.n = s.p.n ∧ q.ub = s.p.ub := by rw [e]; exact ⟨rfl, rfl, rfl⟩
  have hcq : c < q.n := by rw [ec.2.1]; exact hc
  obtain ⟨k1, k2, k3, k4, k5, _⟩ := C47_torn_down_once g bs q hr c hcq
  have kc := C48_connected_once g bs q hr c hcq
  rw [ec.1] at k1 k2 k3 k4 kc
  rw [ec.2.2] at k5
  have hf : (stopped s).conn = (Pool.finalize q).conn := by rw [e, finalize_pre]; rfl
  have hi := (reaches_inv hr).base
  rw [hf, Pool.finalize_conn hi hcq]
  obtain ⟨i1, i2, i3, _⟩ := hi.conn c hcq
  simp only [reduceCtorEq, if_false, Nat.add_zero] at i1
  rw [ec.1] at i1 i2 i3 ⊢
  refine ⟨k1, k2, k3, k4, kc, k5, ?_⟩
  have b : (if (s.p.conn c).term = true then 1 else 0) ≤ 1 := by split <;> omega
  by_cases e : (s.p.conn c).closed = 0
  · rw [if_pos e]
    refine ⟨by simp [Pool.tdConn, e], by simp [Pool.tdConn]; omega, ?_⟩
    simp only [Pool.tdConn, List.mem_cons, List.not_mem_nil, or_false]; omega
  · rw [if_neg e]
    refine ⟨by omega, by omega, ?_⟩
    simp only [List.mem_cons, List.not_mem_nil, or_false]; omega

/-- Two workers; a client is set up, then another worker ends with a fatal error, a second client is accepted, and the program terminates both. -/
def Fatal.sample : List HAct := [.pool (.accept 7), .pool (.exec 0 false), .pool (.exec 0 false), .pool (.user true), .pool (.exec 0 false), .pool (.readable 0)]
def Fatal.sampleAfter : List HAct := [.fatal, .pool (.accept 8), .pool (.exec 1 false), .pool (.terminate 0), .pool (.terminate 1), .drop, .ends 1, .pool (.readable 0), .drop, .drop]

-- hypotheses of C117_told_partial
example : (hrun ⟨false, 2⟩ hinit sample).map (fun s => (s.p.n, (s.p.conn 0).cbs, (s.p.conn 0).reads)) = some (1, [true], 1) ∧
    (hrun ⟨false, 2⟩ hinit sample).map (fun s => (s.p.wq 0, s.p.wq 1, s.p.uq)) = some ([], [], []) ∧ HAct.fatal ∉ sample := by decide
-- hypotheses of C117_violated_forever: the first connection is still read from, neither is closed
example : (hrun ⟨false, 2⟩ hinit (sample ++ sampleAfter)).map
    (fun s => ((s.p.n, s.p.wq 0, (s.p.conn 0).reads), (s.p.conn 0).closed, (s.p.conn 1).cbs, (s.p.conn 1).closed)) = some ((2, [], 2), 0, [], 0) ∧
    (hrun ⟨false, 2⟩ hinit (sample ++ sampleAfter)).map (fun s => ((stopped s).conn 0).closed + ((stopped s).conn 1).closed) = some 2 := by decide
-- a stopped ThreadCall executes nothing, one that is not stopped drops nothing, and a loop that has ended does nothing
example : hrun ⟨false, 2⟩ hinit ([.fatal, .pool (.accept 7), .pool (.exec 0 false)]) = none ∧ hrun ⟨false, 2⟩ hinit [.pool (.accept 7), .drop] = none ∧
    hrun ⟨false, 2⟩ hinit (sample ++ [.pool (.accept 8), .fatal, .ends 1, .pool (.exec 1 false)]) = none ∧ hrun ⟨false, 2⟩ hinit [.ends 1] = none ∧
    hrun ⟨false, 2⟩ hinit [.fatal, .pool (.connect 5 true)] = none ∧ hrun ⟨false, 2⟩ hinit [.fatal, .pool .listen] = none ∧
    hrun ⟨true, 2⟩ hinit (sample.take 2 ++ [.pool (.accept 8), .pool (.exec 1 false), .fatal, .ends 1, .pool (.hsDone 1)]) = none ∧
    hrun ⟨true, 2⟩ hinit [.fatal, .ends 0] = none := by
  refine ⟨rfl, rfl, rfl, rfl, rfl, rfl, rfl, rfl⟩
-- ... and one that runs goes on until then
example : (hrun ⟨true, 2⟩ hinit (sample.take 2 ++ [.pool (.accept 8), .pool (.exec 1 false), .fatal, .pool (.hsDone 1), .pool (.hsDone 0)])).map
    (fun s => ((s.p.conn 1).handshake, s.p.wq 0)) = some (false, [.setup 1, .setup 0]) := by decide

end Salticidae
