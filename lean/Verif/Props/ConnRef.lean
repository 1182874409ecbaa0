import Verif.Lemmas.ConnRef
/-!
C109: a connection object exists as long as it is needed and no longer.
-/
namespace Salticidae
open ConnRef Spec.ConnRef

/-- C109.  Whatever program, peers and schedule do: no step of the network uses a destroyed connection object; and every connection
object is destroyed at most once, not while its connection is open, not while the program holds a handle, not while something about
it is to be delivered, and it is destroyed once none of this is the case any more, at the latest with the network. -/
def C109_statement : Prop :=
  ∀ (g : Cfg) (as : List RAct) (s : RSt), rrun g rinit as = some s → s.bad = false ∧ ∀ c, c < s.m.st.n → WellKept g s c

/-- Every handle is accounted for: in every schedule the object of a connection exists exactly as long as there is a handle to it. -/
theorem C109_counted (g : Cfg) (as : List RAct) (s : RSt) (hr : rrun g rinit as = some s) (c : Nat) (hc : c < s.m.st.n) :
    s.gone c = if held g s c then 0 else 1 :=
  (rinv_run as _ _ (rinv_init g) hr).acc.acc c hc

/-- In every schedule: nothing is used after its destruction, and nothing is destroyed twice or too early. -/
theorem C109_never_early (g : Cfg) (as : List RAct) (s : RSt) (hr : rrun g rinit as = some s) :
    s.bad = false ∧ ∀ c, c < s.m.st.n →
      s.gone c ≤ 1 ∧ (s.phase ≠ .destroyed → ¬ TornDown s c → s.gone c = 0) ∧ (s.user c ≠ 0 → s.gone c = 0) ∧ (waits g s c = true → s.gone c = 0) := by
  have h := rinv_run as _ _ (rinv_init g) hr
  refine ⟨h.acc.bad, fun c hc => ?_⟩
  have ha := h.acc.acc c hc
  refine ⟨by rw [ha]; split <;> omega, fun hp ht => ?_, fun hu => ?_, fun hw => ?_⟩
  · have ht0 : (s.m.st.conn c).closed = 0 := by
      rcases Nat.eq_zero_or_pos (s.m.st.conn c).closed with hz | hz
      · exact hz
      · exact absurd (show TornDown s c by unfold TornDown; omega) ht
    rw [ha, if_pos]
    cases hph : s.phase with
    | running => exact held_pool (((h.run hph).1.base.conn c hc).inpool ht0)
    | stopped => exact absurd ht0 (h.stp hph c hc)
    | destroyed => exact absurd hph hp
  · rw [ha, if_pos (held_user hu)]
  · rw [ha, if_pos (by simp [held, hw])]

/-- The property holds of every schedule in which no connection attempt is completed while the dispatcher is about to terminate the
connection.  Missing: `C109_violated`. -/
theorem C109_kept_partial (g : Cfg) (as : List RAct) (s : RSt) (hr : rrun g rinit as = some s) (hno : NoRace g as) :
    s.bad = false ∧ ∀ c, c < s.m.st.n → WellKept g s c := by
  obtain ⟨hb, hw⟩ := C109_never_early g as s hr
  have h := rinv_run as _ _ (rinv_init g) hr
  have hcl := clean_run as _ _ (rinv_init g) (clean_init g) hno hr
  refine ⟨hb, fun c hc => ?_⟩
  obtain ⟨w1, w2, w3, w4⟩ := hw c hc
  refine ⟨w1, w2, w3, w4, fun hp ht hu hwt => ?_, fun hp hu => ?_⟩
  · rw [h.acc.acc c hc, if_neg]
    intro hh
    have hi := (h.run hp).1.base
    obtain ⟨r1, r2, r3, r4⟩ := hcl.run hp c hc
    have htm : (s.m.st.conn c).term = true := by
      have := (hi.conn c hc).once
      cases hh : (s.m.st.conn c).term
      · rw [hh] at this; simp at this; exact absurd this.2 ht
      · rfl
    have tf : (s.m.st.conn c).term ≠ false := by rw [htm]; simp
    have nw : ¬ (waits g s c = true) := by rw [hwt]; simp
    rw [waits_iff] at nw
    rw [held_iff] at hh
    rcases hh with ⟨e, he, rfl⟩ | h1 | h1 | h1 | ⟨e, he, rfl⟩ | h1 | h1 | h1 | h1 | h1 | h1
    · exact ht (hi.pool e he).2.1
    · exact nw (.inl h1)
    · exact nw (.inr (.inl h1))
    · exact nw (.inr (.inr h1))
    · exact ht (hcl.tbl hp e he).2.2.1
    · exact ht (r4 h1)
    · exact tf (((hcl.v2 hp).v2 c hc).sockT h1)
    · exact tf (r1 h1)
    · exact tf (r2 h1)
    · exact tf (r3 h1)
    · exact h1 hu
  · rw [h.acc.acc c hc, if_neg]
    intro hh
    obtain ⟨f1, f2, f3, f4, f5⟩ := h.fin hp
    obtain ⟨o1, o2, o3, o4, o5⟩ := hcl.off (by rw [hp]; simp) c hc
    rw [held_iff] at hh
    simp [Held, f1, f2, f3, f4, f5, o1, o2, o3, o4, o5, hu] at hh

/-- A network that only accepts connections keeps none of them too long. -/
theorem C109_accepting_partial (g : Cfg) (as : List RAct) (s : RSt) (hr : rrun g rinit as = some s)
    (hno : ∀ c, .pool (.connReady c) ∉ as) (c : Nat) (hc : c < s.m.st.n) : WellKept g s c := by
  refine (C109_kept_partial g as s hr (fun p hp c hc => ?_)).2 c hc
  have : ∀ (as : List RAct) (s : RSt), ∀ p ∈ rtrace g s as, p.2 ∈ as := by
    intro as
    induction as with
    | nil => intro s p hp; simp [rtrace] at hp
    | cons a as ih =>
      intro s p hp
      simp only [rtrace, List.mem_cons] at hp
      rcases hp with rfl | hp
      · simp
      · split at hp
        · exact List.mem_cons_of_mem _ (ih _ p hp)
        · simp at hp
  have := this as _ p hp
  rw [hc] at this
  exact absurd this (hno c)

namespace ConnRef
def plain : Cfg := ⟨⟨false, 1⟩, false, id⟩

/-- The program terminates a connection while it is being established; the dispatcher then hands the new socket to a worker. -/
def late : List RAct := [.dial 5 true true, .pool (.terminate 0), .pool (.exec 0 false), .pool (.connReady 0), .pool (.exec 0 false),
    .release 0, .pool (.exec 0 false), .pool (.exec 0 false), .told true false, .told true false, .pool (.exec 0 false)]

/-- A client network: a connection is made, gives messages, finds the queue full and is closed by its peer; the program
keeps a handle and drops it at the end. -/
def client : Cfg := ⟨⟨false, 1⟩, true, fun _ => 7⟩
def served : List RAct := [.pool .listen, .pool (.accept 5), .pool (.exec 0 false), .pool (.exec 0 false), .told true true,
    .pool (.exec 0 false), .read 0 2 true, .handle false, .handle false, .retry 0 1 false, .pool (.ioError 0), .pool (.exec 0 false),
    .pool (.exec 0 false), .told true false, .drop, .handle false]

/-- The program makes a connection with connect_sync, drops its handle, and stops the network while the connection is open. -/
def dialled : List RAct := [.dial 5 true true, .pool (.connReady 0), .pool (.exec 0 false), .pool (.exec 0 false), .release 0, .told true false,
    .pool (.exec 0 false), .stop]
end ConnRef

-- hypotheses met: the object outlives the closed connection while the program has a handle, and goes with it
example : (rrun client rinit served).map (fun s => (s.gone 0, (s.m.st.conn 0).closed, s.user 0, waits client s 0, s.bad)) = some (0, 1, 1, false, false) ∧
    (rrun client rinit (served ++ [.release 0])).map (fun s => (s.gone 0, s.m.st.n, s.bad)) = some (1, 1, false) := by decide +kernel
example : ∀ c, .pool (.connReady c) ∉ served ++ [.release 0] := by simp [served]
-- a message that was read before the end is still delivered, with a live object
example : (rrun client rinit (served.take 14)).map (fun s => (s.m.mq, s.gone 0, (s.m.st.conn 0).closed)) = some ([0, 0], 0, 1) := by decide +kernel
-- an established connection that nobody but the network holds; after stop() its own callbacks are gone and the pool's table keeps it to the end
example : NoRace plain (dialled ++ [.destroy]) := by
  intro p hp c hc
  have key : ∀ p ∈ rtrace plain rinit (dialled ++ [.destroy]), p.2 = .pool (.connReady 0) → p.1.m.st.wq 0 = [] := by decide +kernel
  have hc0 : p.2 ∈ dialled ++ [.destroy] := by
    have : (rtrace plain rinit (dialled ++ [.destroy])).map (·.2) = dialled ++ [.destroy] := by decide +kernel
    rw [← this]; exact List.mem_map.2 ⟨p, hp, rfl⟩
  have : c = 0 := by rw [hc] at hc0; simpa [dialled] using hc0
  subst this
  rw [key p hp hc]; simp
example : (rrun plain rinit dialled).map (fun s => (s.gone 0, s.user 0, (s.m.st.conn 0).closed, s.phase)) = some (0, 0, 1, .stopped) ∧
    (rrun plain rinit (dialled ++ [.destroy])).map (fun s => (s.gone 0, s.phase)) = some (1, .destroyed) := by decide +kernel

/-- The property fails: when a connection attempt is completed while the dispatcher is about to terminate the connection, the
worker is given the socket of a closed connection; the callbacks it then installs hold the connection for ever, although it is closed, the
program has no handle and nothing waits. -/
theorem C109_violated : ¬ C109_statement := by
  intro h
  have key : (rrun plain rinit late).isSome = true ∧ ∀ s ∈ rrun plain rinit late,
      s.m.st.n = 1 ∧ s.phase = .running ∧ (s.m.st.conn 0).closed = 1 ∧ s.user 0 = 0 ∧ waits plain s 0 = false ∧ s.gone 0 = 0 := by decide +kernel
  obtain ⟨s, hs⟩ := Option.isSome_iff_exists.1 key.1
  obtain ⟨k1, k2, k3, k4, k5, k6⟩ := key.2 s hs
  have := ((h plain late s hs).2 0 (by omega)).freed k2 (by unfold TornDown; omega) k4 k5
  omega

/-- Nor does the end of the network destroy it. -/
theorem C109_violated_end : ∃ s, rrun plain rinit (late ++ [.destroy]) = some s ∧ s.phase = .destroyed ∧ s.m.st.n = 1 ∧
    (∀ c, c < s.m.st.n → s.user c = 0 ∧ s.gone c = 0) := by
  have key : (rrun plain rinit (late ++ [.destroy])).isSome = true ∧ ∀ s ∈ rrun plain rinit (late ++ [.destroy]),
      s.phase = .destroyed ∧ s.m.st.n = 1 ∧ ∀ c, c < s.m.st.n → s.user c = 0 ∧ s.gone c = 0 := by decide +kernel
  obtain ⟨s, hs⟩ := Option.isSome_iff_exists.1 key.1
  exact ⟨s, hs, key.2 s hs⟩

end Salticidae
