import Verif.Lemmas.CConn
import Verif.Spec.CConn
import Verif.Props.ConnRef
/-!
C116: handles to connections in the C interface.
-/
namespace Salticidae
open CConn Spec.CConn ConnRef Spec.ConnRef

/-- C116.  Whatever the network, its peers, the schedule and the other calls of the program do, also after the network was stopped or freed: no
call through a handle that was not freed touches a destroyed connection, and a handle stays usable, for the connection it was given for, until it is freed. -/
def C116_statement : Prop :=
  ∀ (g : CConn.Cfg) (as : List Act) (s : St), run g init as = some s →
    s.bad = false ∧ ∀ p c, Has s p c → Usable g s p c ∧ ∀ a t, a ≠ .free p → step g s a = some t → Has t p c

/-- The property. -/
theorem C116_handles : C116_statement := by
  intro g as s hr
  have i := inv_run (inv_init g) hr
  refine ⟨i.bad, fun p c hp => ⟨?_, fun a t ha h => stays h hp ha⟩⟩
  have hd : deref s p = some c := mem_deref i.nodup hp
  have hu : s.r.user c ≠ 0 := by rw [i.user]; have := handles_pos hp; omega
  have hb : (s.r.user c != 0) = true := by simpa using hu
  refine ⟨(alive i hp).2, fun d h => ?_, ?_, ?_, ?_⟩
  · have := mem_deref i.nodup h
    rw [hd] at this; exact (Option.some.inj this).symm
  · simp [step, hd]
  · simp only [step, hd, Option.bind_some, rstep, effect, hb, if_true, Option.map_some]
    have hf := g.fresh (s.hs.map (·.1))
    refine ⟨_, g.pick (s.hs.map (·.1)), rfl, fun e => ?_, List.mem_cons_self, List.mem_cons_of_mem _ hp, fun d h => ?_⟩
    · rw [e] at hf; exact hf (List.mem_map.mpr ⟨_, hp, rfl⟩)
    · exact hf (List.mem_map.mpr ⟨_, h, rfl⟩)
  · simp only [step, hd, Option.bind_some, rstep, effect, hb, if_true, Option.map_some]
    refine ⟨_, rfl, fun d h => ?_, fun q d hq => ?_⟩
    · have h := (List.mem_filter.mp h).2
      simp at h
    · show (q, d) ∈ s.hs.filter _ ↔ _
      rw [List.mem_filter]
      simp [hq, Has]

/-- The same over any number of steps. -/
theorem C116_until_freed (g : CConn.Cfg) (as bs : List Act) (s t : St) (hs : run g init as = some s) (p c : Nat) (hp : Has s p c)
    (hb : .free p ∉ bs) (ht : run g s bs = some t) : Has t p c ∧ t.r.gone c = 0 ∧ t.bad = false := by
  induction bs generalizing s as with
  | nil =>
    have e : s = t := by simpa [run] using ht
    subst e
    obtain ⟨h1, h2⟩ := C116_handles g as s hs
    exact ⟨hp, (h2 p c hp).1.alive, h1⟩
  | cons b bs ih =>
    simp only [run, Option.bind_eq_some_iff] at ht
    obtain ⟨u, hu, ht⟩ := ht
    simp only [List.mem_cons, not_or] at hb
    have happ : ∀ (as : List Act) (x : St), run g x as = some s → run g x (as ++ [b]) = some u := by
      intro as
      induction as with
      | nil => intro x hx; cases hx; simp [run, hu]
      | cons a as ih =>
        intro x hx
        simp only [run, Option.bind_eq_some_iff, List.cons_append] at hx ⊢
        obtain ⟨y, hy, hx⟩ := hx
        exact ⟨y, hy, ih y hx⟩
    exact ih (as ++ [b]) u (happ as _ hs) ((C116_handles g as s hs).2 p c hp |>.2 b u (fun e => hb.1 e.symm) hu) hb.2 ht

/-- A step of the C interface is the corresponding steps of the C++ interface. -/
theorem CConn.below_step {g : CConn.Cfg} {s t : St} {a : Act} (h : step g s a = some t) (bs : List RAct) :
    rrun g.net s.r (below s a ++ bs) = rrun g.net t.r bs := by
  have one : ∀ (x : RAct) (r : RSt), rstep g.net s.r x = some r → rrun g.net s.r ([x] ++ bs) = rrun g.net r bs := by
    intro x r hx; simp [rrun, hx]
  cases a with
  | sys a =>
    simp only [step] at h
    split at h
    · rw [Option.map_eq_some_iff] at h; obtain ⟨r, hr, rfl⟩ := h; exact one _ _ hr
    · cases h
  | connect fd ok => simp only [step, Option.map_eq_some_iff] at h; obtain ⟨r, hr, rfl⟩ := h; exact one _ _ hr
  | told b =>
    simp only [step] at h
    split at h
    · cases h
    · rw [Option.map_eq_some_iff] at h; obtain ⟨r, hr, rfl⟩ := h; exact one _ _ hr
  | handle =>
    simp only [step] at h
    split at h
    · cases h
    · rw [Option.map_eq_some_iff] at h; obtain ⟨r, hr, rfl⟩ := h; exact one _ _ hr
  | copy q =>
    simp only [step, Option.bind_eq_some_iff, Option.map_eq_some_iff] at h
    obtain ⟨c', hc, r, hr, rfl⟩ := h
    simp only [below, hc, Option.map_some, Option.toList_some]; exact one _ _ hr
  | free q =>
    simp only [step, Option.bind_eq_some_iff, Option.map_eq_some_iff] at h
    obtain ⟨c', hc, r, hr, rfl⟩ := h
    simp only [below, hc, Option.map_some, Option.toList_some]; exact one _ _ hr
  | look q => simp only [step, Option.map_eq_some_iff] at h; obtain ⟨c, hc, rfl⟩ := h; rfl
  | terminate q =>
    simp only [step, Option.bind_eq_some_iff, Option.map_eq_some_iff] at h
    obtain ⟨c', hc, r, hr, rfl⟩ := h
    simp only [below, hc, Option.map_some, Option.toList_some]; exact one _ _ hr

theorem CConn.calls_run {g : CConn.Cfg} {as : List Act} {s t : St} (h : run g s as = some t) : rrun g.net s.r (calls g s as) = some t.r := by
  induction as generalizing s with
  | nil => cases h; rfl
  | cons a as ih =>
    simp only [run, Option.bind_eq_some_iff] at h
    obtain ⟨u, hu, h⟩ := h
    simp only [calls, hu, Option.map_some, Option.getD_some]
    rw [CConn.below_step hu]; exact ih h

/-- The handles are all that the program keeps of a connection: when it has freed all those of connection `c` and the network, the connection is
destroyed, once, in every run without the race of C109. -/
theorem C116_all_freed (g : CConn.Cfg) (as : List Act) (s : St) (hr : run g init as = some s) (hno : NoRace g.net (calls g init as))
    (c : Nat) (hc : c < s.r.m.st.n) (hd : s.r.phase = .destroyed) (hn : ∀ p, ¬ Has s p c) : s.r.gone c = 1 := by
  have i := inv_run (inv_init g) hr
  refine ((C109_kept_partial g.net _ s.r (CConn.calls_run hr) hno).2 c hc).ended hd ?_
  rw [i.user]
  unfold handles
  rw [List.countP_eq_zero]
  intro e he h
  simp only [decide_eq_true_eq] at h
  exact hn e.1 (h ▸ he)

namespace CConn
/-- A client network; an allocator that never uses an address twice before its neighbours are freed. -/
def sample : Cfg := ⟨ConnRef.client, fun l => l.sum + 1, fun l h => by
  have : ∀ (l : List Nat) x, x ∈ l → x ≤ l.sum := by
    intro l
    induction l with
    | nil => intro x hx; cases hx
    | cons y l ih =>
      intro x hx
      rw [List.sum_cons]
      rcases List.mem_cons.mp hx with rfl | hx
      · omega
      · have := ih x hx; omega
  have := this l _ h
  omega⟩

/-- A connection is accepted; the program copies the handle of the connection callback, and one of a message callback, copies it again, terminates the connection
through it and frees the first; frees the network and then looks at the connection. -/
def visit : List Act := [.sys (.pool .listen), .sys (.pool (.accept 5)), .sys (.pool (.exec 0 false)), .sys (.pool (.exec 0 false)), .told true,
    .sys (.pool (.exec 0 false)), .sys (.read 0 2 false), .handle, .copy 2, .terminate 2, .free 1, .sys .destroy, .look 4, .free 2]
end CConn

-- hypotheses met: two handles are left after the network was freed, then one; the connection is closed and alive
example : (run sample init visit).map (fun s => (s.hs, s.r.gone 0, s.r.phase, s.bad)) = some ([(4, 0)], 0, .destroyed, false) := by decide +kernel
example : (run sample init (visit ++ [.free 4])).map (fun s => (s.hs, s.r.gone 0, s.r.phase, s.bad)) = some ([], 1, .destroyed, false) := by decide +kernel
example : NoRace sample.net (calls sample init (visit ++ [.free 4])) := by
  intro p hp c hc
  exfalso
  have key : ∀ p ∈ rtrace sample.net rinit (calls sample init (visit ++ [.free 4])), p.2 ≠ .pool (.connReady 0) ∧
      (match p.2 with | .pool (.connReady _) => false | _ => true) = true := by decide +kernel
  have := (key p hp).2
  rw [hc] at this
  cases this
-- what `bad` records: any call through a handle whose connection is destroyed
example (g : CConn.Cfg) (s t : St) (p c : Nat) (a : Act) (ha : a ∈ [.copy p, .free p, .look p, .terminate p]) (hd : deref s p = some c)
    (hg : s.r.gone c ≠ 0) (h : step g s a = some t) : t.bad = true := by
  have ht : touched s c = true := by simp [touched, hg]
  simp only [List.mem_cons, List.not_mem_nil, or_false] at ha
  rcases ha with rfl | rfl | rfl | rfl <;>
    simp only [step, hd, Option.bind_some, Option.map_some, Option.map_eq_some_iff, Option.some.injEq] at h
  · obtain ⟨_, _, rfl⟩ := h; exact ht
  · obtain ⟨_, _, rfl⟩ := h; exact ht
  · subst h; exact ht
  · obtain ⟨_, _, rfl⟩ := h; exact ht
-- a freed handle cannot be used
example : run sample init (visit ++ [.look 2]) = none := by decide +kernel

end Salticidae
