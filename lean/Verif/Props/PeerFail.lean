import Verif.Spec.PeerFail
import Verif.Props.PeerLife
/-!
C118: attempts to connect to a peer that fail.
-/
namespace Salticidae
open PeerFail Spec.PeerFail

/-- The attempts for a peer: its retry timer fires and there is a socket, or there is none. -/
def PeerFail.attempt (p : Nat) (a : FAct) : Prop := a = .net (.retry p) ∨ a = .fail p

/-- C118.  Whatever has happened and whatever the system answers, an attempt to connect to a peer is harmless. -/
def C118_statement : Prop := ∀ (g : PeerNet.Cfg) (l : List FAct) (s t : FSt) (p : Nat) (a : FAct),
  frun g finit l = some s → attempt p a → fstep g s a = some t → Harmless s t p

namespace PeerFail

theorem same_refl (s : FSt) : Same s s := ⟨rfl, rfl, fun _ => ⟨rfl, rfl, rfl⟩⟩
theorem same_trans {s t u : FSt} (h : Same s t) (k : Same t u) : Same s u :=
  ⟨k.1.trans h.1, k.2.1.trans h.2.1, fun p => ⟨(k.2.2 p).1.trans (h.2.2 p).1, (k.2.2 p).2.1.trans (h.2.2 p).2.1, (k.2.2 p).2.2.trans (h.2.2 p).2.2⟩⟩

/-- A change of one peer that keeps its state, connection and address. -/
theorem same_set {p q : Nat} {f : Nat → PeerNet.Peer} {x : PeerNet.Peer} (h1 : x.state = (f p).state) (h2 : x.conn = (f p).conn) (h3 : x.addr = (f p).addr) :
    (PeerNet.upd f p x q).state = (f q).state ∧ (PeerNet.upd f p x q).conn = (f q).conn ∧ (PeerNet.upd f p x q).addr = (f q).addr := by
  unfold PeerNet.upd
  split
  · subst_vars; exact ⟨h1, h2, h3⟩
  · exact ⟨rfl, rfl, rfl⟩

theorem dt_known (s : PeerNet.St) (o : Option Nat) : (PeerNet.dispTerminate? s o).known = s.known ∧ (PeerNet.dispTerminate? s o).cbs = s.cbs ∧
    (PeerNet.dispTerminate? s o).peers = s.peers := by
  cases o <;> exact ⟨rfl, rfl, rfl⟩

/-- The steps that are not closures of the dispatcher. -/
theorem anyway_same {g : PeerNet.Cfg} {s t : FSt} {a : PeerNet.Act} (ha : anyway a = true) (h : fstep g s (.net a) = some t) :
    Same s t ∧ t.fatal = s.fatal ∧ t.dead = s.dead := by
  simp only [fstep, ha, or_true, if_true, Option.map_eq_some_iff] at h
  obtain ⟨n, hn, rfl⟩ := h
  refine ⟨?_, rfl, rfl⟩
  cases a with
  | accept addr cert =>
    simp only [PeerNet.step] at hn
    split at hn <;> cases hn
    exact same_refl s
  | lost c =>
    simp only [PeerNet.step] at hn
    split at hn <;> cases hn
    exact same_refl s
  | retry p =>
    simp only [PeerNet.step] at hn
    split at hn <;> cases hn
    refine ⟨(dt_known _ _).1, (dt_known _ _).2.1, fun q => ?_⟩
    simp only [PeerNet.retryTimer, PeerNet.setPeer, (dt_known _ _).2.2]
    exact same_set rfl rfl rfl
  | pingTimer p =>
    simp only [PeerNet.step] at hn
    split at hn <;> cases hn
    simp only [PeerNet.pingTimer]
    split
    · exact ⟨rfl, rfl, fun q => same_set rfl rfl rfl⟩
    · simp only [PeerNet.resetSendPing]
      split
      · refine ⟨rfl, rfl, fun q => ?_⟩
        simp only [PeerNet.setPeer, PeerNet.upd]
        by_cases e : q = p <;> simp [e]
      · refine ⟨rfl, rfl, fun q => ?_⟩
        simp only [PeerNet.setPeer, PeerNet.upd, PeerNet.send, PeerNet.setConn]
        by_cases e : q = p <;> simp [e]
    · exact ⟨rfl, rfl, fun q => same_set rfl rfl rfl⟩
  | _ => cases ha

theorem fail_same {g : PeerNet.Cfg} {s t : FSt} {p : Nat} (h : fstep g s (.fail p) = some t) : Same s t ∧ t.dead = true ∧ (t.net.peers p).retryArmed = false := by
  simp only [fstep] at h
  split at h <;> cases h
  refine ⟨⟨rfl, rfl, fun q => same_set rfl rfl rfl⟩, rfl, ?_⟩
  simp [PeerNet.setPeer, PeerNet.upd]

end PeerFail

/-- It is so when there is a socket: whether the other side answers, refuses or is silent makes no difference then.  Missing: `C118_violated`. -/
theorem C118_socket_partial (g : PeerNet.Cfg) (l : List FAct) (s t : FSt) (p : Nat) (_ : frun g finit l = some s) (ht : fstep g s (.net (.retry p)) = some t) : Harmless s t p := by
  obtain ⟨h1, h2, h3⟩ := anyway_same rfl ht
  refine ⟨h2, h3, h1, ?_⟩
  simp only [fstep, anyway, or_true, if_true, Option.map_eq_some_iff] at ht
  obtain ⟨n, hn, rfl⟩ := ht
  simp only [PeerNet.step] at hn
  split at hn <;> cases hn
  simp [PeerNet.retryTimer, PeerNet.setPeer, PeerNet.upd]

/-- And if there is one for every attempt there is never a fatal error. -/
theorem C118_none_partial (g : PeerNet.Cfg) (l : List FAct) (s : FSt) (h : frun g finit l = some s) (hl : ∀ p, .fail p ∉ l) : s.fatal = 0 ∧ s.dead = false := by
  suffices hh : ∀ (l : List FAct) (r : FSt), (∀ p, .fail p ∉ l) → frun g r l = some s → s.fatal = r.fatal ∧ s.dead = r.dead from hh l finit hl h
  intro l
  induction l with
  | nil => intro r _ h; cases h; exact ⟨rfl, rfl⟩
  | cons a l ih =>
    intro r hl h
    simp only [frun, Option.bind_eq_some_iff] at h
    obtain ⟨u, hu, h⟩ := h
    have k := ih u (fun p hp => hl p (List.mem_cons_of_mem _ hp)) h
    cases a with
    | net a =>
      simp only [fstep] at hu
      split at hu
      · rw [Option.map_eq_some_iff] at hu; obtain ⟨n, _, rfl⟩ := hu; exact k
      · cases hu
    | fail p => exact absurd List.mem_cons_self (hl p)

/-- The peers 5 and 6 are to be connected; the process has no descriptor left when the timer of peer 5 fires. -/
def PeerFail.full : List FAct := [.net (.addPeer 5), .net (.setAddr 5 5), .net (.connPeer 5 (-1)), .net (.addPeer 6), .net (.setAddr 6 6), .net (.connPeer 6 (-1))]

/-- The code does not have it: an attempt for which the system has no socket is a fatal error of the network. -/
theorem C118_violated : ¬ C118_statement := by
  intro h
  have e : ((frun byAddr finit full).bind (fun s => fstep byAddr s (.fail 0))).map (·.fatal) = some 1 ∧ (frun byAddr finit full).map (·.fatal) = some 0 := by decide
  cases hs : frun byAddr finit full with
  | none => rw [hs] at e; exact absurd e.2 (by simp)
  | some s =>
    rw [hs] at e
    simp only [Option.bind_some, Option.map_some, Option.some.injEq] at e
    cases ht : fstep byAddr s (.fail 0) with
    | none => rw [ht] at e; exact absurd e.1 (by simp)
    | some t =>
      rw [ht] at e
      have := (h byAddr full s t 0 _ hs (.inr rfl) ht).1
      simp only [Option.map_some, Option.some.injEq] at e
      omega

/-- From then on, whatever happens: no peer is added or deleted, none is connected, also not one that has nothing to do with the attempt, none is reported lost, and this peer is not
dialled again. -/
theorem C118_violated_forever (g : PeerNet.Cfg) (l l' : List FAct) (s t u : FSt) (p : Nat) (_ : frun g finit l = some s) (ht : fstep g s (.fail p) = some t)
    (hu : frun g t l' = some u) : Same s u ∧ (u.net.peers p).dials = (s.net.peers p).dials := by
  suffices hh : ∀ (l : List FAct) (r : FSt), r.dead = true → (r.net.peers p).retryArmed = false → frun g r l = some u →
      Same r u ∧ (u.net.peers p).dials = (r.net.peers p).dials by
    obtain ⟨h1, h2, h3⟩ := fail_same ht
    obtain ⟨k1, k2⟩ := hh l' t h2 h3 hu
    refine ⟨same_trans h1 k1, k2.trans ?_⟩
    simp only [fstep] at ht
    split at ht <;> cases ht
    simp [PeerNet.setPeer, PeerNet.upd]
  intro l
  induction l with
  | nil => intro r _ _ h; cases h; exact ⟨same_refl _, rfl⟩
  | cons a l ih =>
    intro r hd hr h
    simp only [frun, Option.bind_eq_some_iff] at h
    obtain ⟨v, hv, h⟩ := h
    suffices hk : Same r v ∧ v.dead = true ∧ (v.net.peers p).retryArmed = false ∧ (v.net.peers p).dials = (r.net.peers p).dials by
      obtain ⟨k1, k2⟩ := ih v hk.2.1 hk.2.2.1 h
      exact ⟨same_trans hk.1 k1, k2.trans hk.2.2.2⟩
    cases a with
    | fail q =>
      obtain ⟨h1, h2, _⟩ := fail_same hv
      refine ⟨h1, h2, ?_⟩
      simp only [fstep] at hv
      split at hv <;> cases hv
      simp only [PeerNet.setPeer, PeerNet.upd]
      split
      · subst_vars; exact ⟨rfl, rfl⟩
      · exact ⟨hr, rfl⟩
    | net a =>
      cases ha : anyway a with
      | false => simp [fstep, hd, ha] at hv
      | true =>
        obtain ⟨h1, _, h3⟩ := anyway_same ha hv
        refine ⟨h1, h3.trans hd, ?_⟩
        simp only [fstep, ha, or_true, if_true, Option.map_eq_some_iff] at hv
        obtain ⟨n, hn, rfl⟩ := hv
        cases a with
        | accept addr cert => simp only [PeerNet.step] at hn; split at hn <;> cases hn; exact ⟨hr, rfl⟩
        | lost c => simp only [PeerNet.step] at hn; split at hn <;> cases hn; exact ⟨hr, rfl⟩
        | retry q =>
          simp only [PeerNet.step] at hn
          split at hn
          case isFalse => cases hn
          case isTrue hq =>
            cases hn
            have hne : p ≠ q := by intro e; subst e; rw [hr] at hq; exact absurd hq.2.2 (by simp)
            simp only [PeerNet.retryTimer, PeerNet.setPeer, (dt_known _ _).2.2, PeerNet.upd, if_neg hne]
            exact ⟨hr, trivial⟩
        | pingTimer q =>
          simp only [PeerNet.step] at hn
          split at hn <;> cases hn
          simp only [PeerNet.pingTimer]
          split
          · simp only [PeerNet.setPeer, PeerNet.upd]; by_cases e : p = q
            · subst e; simp [hr]
            · simp [e, hr]
          · simp only [PeerNet.resetSendPing]
            split <;>
            · simp only [PeerNet.setPeer, PeerNet.upd, PeerNet.send, PeerNet.setConn]
              by_cases e : p = q
              · subst e; simp [hr]
              · simp [e, hr]
          · simp only [PeerNet.setPeer, PeerNet.upd]; by_cases e : p = q
            · subst e; simp [hr]
            · simp [e, hr]
        | _ => cases ha

-- hypotheses: an attempt with a socket; two with none; the other peer's timer still fires, but its connection is not set up any more
example : (frun byAddr finit (full ++ [.net (.retry 0)])).map (fun s => ((s.net.peers 0).dials, (s.net.peers 0).retryArmed, s.fatal, s.dead)) = some (1, true, 0, false) := by decide
example : (frun byAddr finit (full ++ [.fail 0, .net (.retry 1), .net (.accept 8 0), .net (.lost 2), .net (.retry 1), .fail 1])).map
    (fun s => ((s.net.peers 0).dials, (s.net.peers 1).dials, s.fatal, s.net.n)) = some (0, 2, 2, 5) := by decide
example : (frun byAddr finit (full ++ [.fail 0, .net (.retry 1), .net (.established 2 0 0#16)])).isSome = false ∧
    (frun byAddr finit (full ++ [.net (.retry 1), .net (.established 2 0 0#16)])).isSome = true ∧
    (frun byAddr finit (full ++ [.fail 0, .fail 0])).isSome = false ∧ (frun byAddr finit (full ++ [.fail 0, .net (.addPeer 7)])).isSome = false := by decide

end Salticidae
