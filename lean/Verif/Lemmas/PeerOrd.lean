import Verif.Lemmas.PeerPend
/-!
The invariant of orderly histories: a peer's state and its connection agree.
-/
namespace Salticidae
namespace PeerNet
open Spec.PeerNet

theorem lastReport_append (s t : St) (c d : Nat) (v : Bool) (h : t.cbs = s.cbs ++ [(d, v)]) :
    lastReport t c = if c = d then some v else lastReport s c := by
  unfold lastReport
  rw [h, List.filter_append]
  by_cases e : c = d
  · subst e; simp
  · have : ¬ d = c := fun h => e h.symm
    simp [e, this]

theorem lastReport_same (s t : St) (c : Nat) (h : t.cbs = s.cbs) : lastReport t c = lastReport s c := by
  unfold lastReport; rw [h]

structure Ord (who : Nat → Nat) (s : St) : Prop where
  term : ∀ c, c < s.n → (s.conns c).torn = true → (s.conns c).term = true
  link : ∀ c p, (s.conns c).torn = false → (s.conns c).peer = some p → (s.peers p).freed = false ∧ (s.peers p).id = who c ∧
    ((s.conns c).active = true → (s.conns c).manual = false)
  up : ∀ p, p < s.m → (s.peers p).freed = false → (s.peers p).state ≠ .disconnected →
    (s.conns (s.peers p).conn).torn = false ∧ (s.conns (s.peers p).conn).peer = some p ∧ (s.peers p).retryArmed = false ∧
    (∀ d, (s.conns d).torn = false → (s.conns d).peer = some p → d = (s.peers p).conn) ∧
    lastReport s (s.peers p).conn = some true
  down : ∀ p, p < s.m → (s.peers p).freed = false → (s.peers p).state = .disconnected →
    (s.conns (s.peers p).conn).torn = true ∧ lastReport s (s.peers p).conn ≠ some true
  side : ∀ p c, p < s.m → (s.peers p).inbound = some c ∨ (s.peers p).outbound = some c → who c = (s.peers p).id

theorem ord_init (who : Nat → Nat) : Ord who init := by
  refine ⟨by simp [init], by simp [init, newConn], by simp [init], by simp [init], by simp [init]⟩

/-- Two live peers with one id are one. -/
theorem Basic.inj {s : St} (b : Basic s) {p q : Nat} (hp : p < s.m) (hq : q < s.m) (fp : (s.peers p).freed = false)
    (fq : (s.peers q).freed = false) (h : (s.peers p).id = (s.peers q).id) : p = q := by
  have h1 := b.find_iff.mpr ⟨hp, rfl, fp⟩
  have h2 := b.find_iff.mpr ⟨hq, rfl, fq⟩
  rw [h, h2] at h1
  injection h1 with h1; exact h1.symm

/-- Nothing but harmless fields of one peer changes. -/
structure Mild (who : Nat → Nat) (x y : Peer) : Prop where
  id : x.id = y.id
  freed : x.freed = y.freed
  conn : x.conn = y.conn
  state : x.state = .disconnected ↔ y.state = .disconnected
  armed : x.state ≠ .disconnected → y.retryArmed = false → x.retryArmed = false
  side : ∀ c, x.inbound = some c ∨ x.outbound = some c → (y.inbound = some c ∨ y.outbound = some c) ∨ who c = y.id

theorem Ord.mild {who : Nat → Nat} {s t : St} (o : Ord who s) (hn : t.n = s.n) (hm : t.m = s.m)
    (hfix : ∀ d, (t.conns d).active = (s.conns d).active ∧ (t.conns d).manual = (s.conns d).manual ∧
      ((s.conns d).term = true → (t.conns d).term = true) ∧ (t.conns d).torn = (s.conns d).torn)
    (hl : ∀ d, (t.conns d).peer = (s.conns d).peer) (hcbs : t.cbs = s.cbs)
    (hp : ∀ p, Mild who (t.peers p) (s.peers p)) : Ord who t := by
  refine ⟨fun c hc h => ?_, fun c p h1 h2 => ?_, fun p h1 h2 h3 => ?_, fun p h1 h2 h3 => ?_, fun p c h1 h2 => ?_⟩
  · rw [hn] at hc; rw [(hfix c).2.2.2] at h
    exact (hfix c).2.2.1 (o.term c hc h)
  · rw [(hfix c).2.2.2] at h1
    rw [hl] at h2
    rw [(hp p).freed, (hp p).id, (hfix c).1, (hfix c).2.1]
    exact o.link c p h1 h2
  · rw [hm] at h1
    rw [(hp p).freed] at h2
    have h3' := fun h => h3 ((hp p).state.mpr h)
    obtain ⟨u1, u2, u3, u4, u5⟩ := o.up p h1 h2 h3'
    rw [(hp p).conn, (hfix _).2.2.2, hl, lastReport_same s t _ hcbs]
    refine ⟨u1, u2, (hp p).armed h3 u3, fun d h4 h5 => ?_, u5⟩
    rw [(hfix _).2.2.2] at h4
    rw [hl] at h5
    exact u4 d h4 h5
  · rw [hm] at h1
    rw [(hp p).freed] at h2
    rw [(hp p).conn, (hfix _).2.2.2, lastReport_same s t _ hcbs]
    exact o.down p h1 h2 ((hp p).state.mp h3)
  · rw [hm] at h1
    rw [(hp p).id]
    rcases (hp p).side c h2 with h | h
    · exact o.side p c h1 h
    · exact h

theorem Mild.refl (who : Nat → Nat) (x : Peer) : Mild who x x := ⟨rfl, rfl, rfl, Iff.rfl, fun _ h => h, fun _ h => .inl h⟩

theorem mild_upd {who : Nat → Nat} {s : St} {p : Nat} {x : Peer} (h : Mild who x (s.peers p)) (q : Nat) :
    Mild who (upd s.peers p x q) (s.peers q) := by
  rw [upd_apply]; split
  · rename_i e; rw [e]; exact h
  · exact .refl _ _

theorem Ord.same0 {who : Nat → Nat} {s t : St} (o : Ord who s) (k : Same0 s t) : Ord who t :=
  o.mild k.n k.m (fun d => ⟨(k.fix d).active, (k.fix d).manual, by rw [(k.fix d).term]; exact id, (k.fix d).torn⟩) k.link k.cbs
    (fun p => by rw [k.peers]; exact .refl _ _)

theorem Ord.chg {who : Nat → Nat} {s t : St} {p : Nat} {x : Peer} (o : Ord who s) (k : Chg s t p x) (h : Mild who x (s.peers p)) :
    Ord who t :=
  o.mild k.n k.m (fun d => ⟨(k.fix d).active, (k.fix d).manual, by rw [(k.fix d).term]; exact id, (k.fix d).torn⟩) k.link k.cbs
    (fun q => by rw [k.peers]; exact mild_upd h q)

theorem Ord.quiet {who : Nat → Nat} {s t : St} (o : Ord who s) (hn : t.n = s.n) (hm : t.m = s.m) (hc : t.conns = s.conns)
    (hcbs : t.cbs = s.cbs) (hp : t.peers = s.peers) : Ord who t :=
  o.mild hn hm (fun d => by rw [hc]; exact ⟨rfl, rfl, id, rfl⟩) (fun d => by rw [hc]) hcbs (fun p => by rw [hp]; exact .refl _ _)

/-- A new connection, not linked to a peer. -/
theorem Ord.grow {who : Nat → Nat} {s : St} (o : Ord who s) (b : Basic s) (x : Conn) (hx : x.peer = none) (hx' : x.torn = false) :
    Ord who { s with n := s.n + 1, conns := upd s.conns s.n x } := by
  refine ⟨fun c h1 h2 => ?_, fun c p h1 h2 => ?_, fun p h1 h2 h3 => ?_, fun p h1 h2 h3 => ?_, fun p c h1 h2 => ?_⟩
  all_goals simp only [upd_apply] at *
  · split at h2
    · rw [hx'] at h2; cases h2
    · rename_i e; rw [if_neg e]; exact o.term c (by omega) h2
  · split at h2
    · rw [hx] at h2; cases h2
    · rename_i e; rw [if_neg e] at h1 ⊢; exact o.link c p h1 h2
  · obtain ⟨u1, u2, u3, u4, u5⟩ := o.up p h1 h2 h3
    have := (b.idx p h1).1
    rw [if_neg (by omega)]
    refine ⟨u1, u2, u3, fun d h4 h5 => ?_, u5⟩
    split at h5
    · rw [hx] at h5; cases h5
    · rename_i e; rw [if_neg e] at h4; exact u4 d h4 h5
  · have := (b.idx p h1).1
    rw [if_neg (by omega)]
    exact o.down p h1 h2 h3
  · exact o.side p c h1 h2

/-- The completion of a handshake. -/
theorem Ord.fin {who : Nat → Nat} {s t : St} {p c : Nat} {x : Peer} (o : Ord who s) (b : Basic s) (k : Fin s t p c x)
    (hc : c < s.n) (hp : p < s.m) (hf : (s.peers p).freed = false) (hst : (s.peers p).state = .disconnected)
    (ht : (s.conns c).term = false) (hw : (s.peers p).id = who c) (hman : (s.conns c).active = true → (s.conns c).manual = false)
    (xi : x.id = (s.peers p).id) (xf : x.freed = (s.peers p).freed) (xc : x.conn = (s.peers p).conn)
    (xo : ∀ d, x.outbound = some d → who d = (s.peers p).id)
    (hd : ∀ d, (s.conns d).torn = false → (s.conns d).peer = some p → d = c ∨ x.outbound = some d) : Ord who t := by
  have hctorn : (s.conns c).torn = false := by
    cases e : (s.conns c).torn with
    | false => rfl
    | true => rw [o.term c hc e] at ht; cases ht
  have hcp : ∀ q, (s.conns c).peer = some q → q = p := by
    intro q hq
    have := o.link c q hctorn hq
    exact b.inj (b.link c q hq).2 hp this.1 hf (by rw [this.2.1, hw])
  have hpd := o.down p hp hf hst
  -- what is unlinked and not torn belonged to p
  have hun : ∀ d q, (s.conns d).torn = false → (s.conns d).peer = some q → q ≠ p → (t.conns d).peer = some q := by
    intro d q h1 h2 h3
    rw [k.link]
    have hne : d ≠ c := by intro e; rw [e] at h2; exact h3 (hcp q h2)
    rw [if_neg hne, if_neg]
    · exact h2
    · rintro (h | h)
      · have := o.link d q h1 h2
        exact h3 (b.inj (b.link d q h2).2 hp this.1 hf (by rw [this.2.1, xo d h]))
      · rw [xc] at h
        rw [← h, hpd.1] at h1; cases h1
  have hq : ∀ q, q ≠ p → t.peers q = s.peers q := fun q h => by rw [k.peers, upd_apply, if_neg h]
  have htp : t.peers p = finished x c := by rw [k.peers, upd_self]
  have hrep : ∀ d, lastReport t d = if d = c then some true else lastReport s d := fun d => lastReport_append s t d c true k.cbs
  refine ⟨fun d h1 h2 => ?_, fun d q h1 h2 => ?_, fun q h1 h2 h3 => ?_, fun q h1 h2 h3 => ?_, fun q d h1 h2 => ?_⟩
  · rw [k.n] at h1
    rw [(k.fix d).torn] at h2
    rw [(k.fix d).term]; exact o.term d h1 h2
  · rw [(k.fix d).torn] at h1
    rw [(k.fix d).active, (k.fix d).manual]
    rw [k.link] at h2
    split at h2
    · rename_i e; injection h2 with h2; subst h2; subst e
      rw [htp]
      exact ⟨by simpa [finished, xf] using hf, by simpa [finished, xi] using hw, hman⟩
    · split at h2
      · cases h2
      · have := o.link d q h1 h2
        by_cases e : q = p
        · subst e; rw [htp]
          exact ⟨by simpa [finished, xf] using hf, by simpa [finished, xi] using this.2.1, this.2.2⟩
        · rw [hq q e]; exact this
  · rw [k.m] at h1
    by_cases e : q = p
    · subst e
      rw [htp]
      have e1 : (finished x c).conn = c := rfl
      rw [e1, (k.fix c).torn, k.link, if_pos rfl, hrep, if_pos rfl]
      refine ⟨hctorn, rfl, rfl, fun d h4 h5 => ?_, rfl⟩
      rw [(k.fix d).torn] at h4
      rw [k.link] at h5
      split at h5
      · assumption
      · split at h5
        · cases h5
        · rename_i h6 h7
          rcases hd d h4 h5 with h | h
          · exact h
          · exact absurd (.inl h) h7
    · rw [hq q e] at h2 h3 ⊢
      obtain ⟨u1, u2, u3, u4, u5⟩ := o.up q h1 h2 h3
      have hne : (s.peers q).conn ≠ c := by
        intro h; rw [h] at u2; exact e (hcp q u2)
      refine ⟨by rw [(k.fix _).torn]; exact u1, hun _ q u1 u2 e, u3, fun d h4 h5 => ?_, by rw [hrep, if_neg hne]; exact u5⟩
      rw [(k.fix d).torn] at h4
      rw [k.link] at h5
      split at h5
      · injection h5 with h5; exact absurd h5.symm e
      · split at h5
        · cases h5
        · exact u4 d h4 h5
  · rw [k.m] at h1
    by_cases e : q = p
    · subst e; rw [htp] at h3; simp [finished] at h3
    · rw [hq q e] at h2 h3 ⊢
      obtain ⟨d1, d2⟩ := o.down q h1 h2 h3
      have hne : (s.peers q).conn ≠ c := by
        intro h; rw [h, hctorn] at d1; cases d1
      exact ⟨by rw [(k.fix _).torn]; exact d1, by rw [hrep, if_neg hne]; exact d2⟩
  · rw [k.m] at h1
    by_cases e : q = p
    · subst e; rw [htp] at h2; simp [finished] at h2
    · rw [hq q e] at h2 ⊢; exact o.side q d h1 h2

theorem Ord.ping {who : Nat → Nat} {g : Cfg} {s : St} (o : Ord who s) (b : Basic s) {c : Nat} (hc : c < s.n) (h : Hs) (d : BitVec 16)
    (hid : h.claimed ≠ 0 → (s.conns c).active = false → pidOf g (s.conns c) h.claimed = who c ∧
      ∀ p, find s (pidOf g (s.conns c) h.claimed) = some p → (s.peers p).state = .disconnected → ∀ d, (s.conns d).torn = false →
      (s.conns d).peer = some p → d = c ∨ (s.peers p).outbound = some d) :
    Ord who (pingClosure g s c h d) := by
  cases ping_eff g s c h d with
  | nop e => exact o.same0 e
  | unknown _ _ _ _ e =>
    rw [e]
    exact (o.same0 (same0_term s c)).quiet rfl rfl rfl rfl rfl
  | preempt p hh hst e =>
    have hi := hid hh.claimed hh.passive
    have hb := b.find_iff.mp hh.found
    refine o.chg e ⟨rfl, rfl, rfl, Iff.rfl, fun _ h => h, ?_⟩
    rintro d (h | h)
    · simp only at h; injection h with h; subst h; right; rw [hb.2.1, hi.1]
    · exact .inl (.inr h)
  | reject p hh hst hn e ea =>
    have hi := hid hh.claimed hh.passive
    have hb := b.find_iff.mp hh.found
    refine o.chg e ⟨by simp, by simp, by simp, by simp, by simp, ?_⟩
    rintro d (h | h)
    · simp only at h; injection h with h; subst h; right; rw [hb.2.1, hi.1]
    · exact .inl (.inr (by simpa using h))
  | accept p hh hst hn e =>
    have hi := hid hh.claimed hh.passive
    have hb := b.find_iff.mp hh.found
    refine o.fin b e hc hb.1 hb.2.2 hst hh.term (by rw [hb.2.1, hi.1]) (by rw [hh.passive]; simp) (by simp) (by simp) (by simp) ?_ ?_
    · intro d h; exact o.side p d hb.1 (.inr (by simpa using h))
    · intro d h1 h2
      have := hi.2 p hh.found hst d h1 h2
      simpa using this

theorem ord_step {who : Nat → Nat} {g : Cfg} {s t : St} {a : Act} (b : Basic s) (hcl : ∀ e ∈ s.cbs, e.1 < s.n) (o : Ord who s) (ho : Orderly who g s a)
    (h : step g s a = some t) : Ord who t := by
  obtain ⟨hretry, hdel, hid⟩ := ho
  have hl := life_step h
  cases a with
  | addPeer pid =>
    simp only [step, Option.some.injEq] at h; subst h
    unfold addPeer
    split
    · exact o.quiet rfl rfl rfl rfl rfl
    · have hp : ∀ p, p ≠ s.m → upd s.peers s.m (newPeer pid s.n) p = s.peers p := fun p h => by rw [upd_apply, if_neg h]
      refine ⟨fun c h1 h2 => ?_, fun c p h1 h2 => ?_, fun p h1 h2 h3 => ?_, fun p h1 h2 h3 => ?_, fun p c h1 h2 => ?_⟩
      all_goals simp only at *
      · rw [upd_apply] at h2 ⊢
        split
        · rfl
        · rename_i e; rw [if_neg e] at h2; exact o.term c (by omega) h2
      · by_cases e : c = s.n
        · rw [e, upd_self] at h1; simp at h1
        · rw [upd_apply, if_neg e] at h1 h2
          have h4 := b.link c p h2
          have h5 : (upd s.conns s.n { newConn 0 0 false with peer := some s.m, setUp := true, term := true, torn := true }) c = s.conns c := by
            rw [upd_apply, if_neg e]
          rw [hp p (by omega), h5]
          exact o.link c p h1 h2
      · by_cases e : p = s.m
        · rw [e, upd_self] at h3; simp [newPeer] at h3
        · rw [hp p e] at h2 h3 ⊢
          obtain ⟨u1, u2, u3, u4, u5⟩ := o.up p (by omega) h2 h3
          have := (b.idx p (by omega)).1
          rw [upd_apply, if_neg (by omega)]
          refine ⟨u1, u2, u3, fun d h4 h5 => ?_, u5⟩
          by_cases e2 : d = s.n
          · rw [e2, upd_self] at h4; simp at h4
          · rw [upd_apply, if_neg e2] at h4 h5; exact u4 d h4 h5
      · by_cases e : p = s.m
        · rw [e, upd_self]
          refine ⟨by simp [newPeer], ?_⟩
          have : ∀ x ∈ s.cbs, ¬ x.1 = s.n := fun x hx => by have := hcl x hx; omega
          have h0 : s.cbs.filter (fun x => decide (x.1 = s.n)) = [] := by
            rw [List.filter_eq_nil_iff]; intro x hx; simpa using this x hx
          show ¬ ((s.cbs.filter (fun x => decide (x.1 = s.n))).getLast?).map (·.2) = some true
          rw [h0]
          simp
        · rw [hp p e] at h2 h3 ⊢
          obtain ⟨d1, d2⟩ := o.down p (by omega) h2 h3
          have := (b.idx p (by omega)).1
          rw [upd_apply, if_neg (by omega)]
          exact ⟨d1, d2⟩
      · by_cases e : p = s.m
        · rw [e, upd_self] at h2; simp [newPeer] at h2
        · rw [hp p e] at h2 ⊢; exact o.side p c (by omega) h2
  | delPeer pid =>
    simp only [step, Option.some.injEq] at h; subst h
    cases hf : find s pid with
    | none => simp only [delPeer, hf]; exact o.quiet rfl rfl rfl rfl rfl
    | some p =>
      have k := del_eff s pid p hf
      have hb := b.find_iff.mp hf
      have hd := hdel pid p rfl hf
      generalize delPeer s pid = t at *
      have hq : ∀ q, q ≠ p → t.peers q = s.peers q := fun q h => by rw [k.peers, upd_apply, if_neg h]
      have htp : t.peers p = { s.peers p with freed := true } := by rw [k.peers, upd_self]
      have hun : ∀ d q, (s.conns d).torn = false → (s.conns d).peer = some q → q ≠ p → (t.conns d).peer = some q := by
        intro d q h1 h2 h3
        rw [k.link, if_neg]
        · exact h2
        · rintro (h | h)
          · cases hst : (s.peers p).state with
            | disconnected =>
              have := (o.down p hb.1 hb.2.2 hst).1
              rw [h, h1] at this; cases this
            | connected =>
              have := (o.up p hb.1 hb.2.2 (by rw [hst]; simp)).2.1
              rw [h, h2] at this; injection this with this; exact h3 this
            | reset =>
              have := (o.up p hb.1 hb.2.2 (by rw [hst]; simp)).2.1
              rw [h, h2] at this; injection this with this; exact h3 this
          · have h4 := o.link d q h1 h2
            have h5 := o.side p d hb.1 h
            exact h3 (b.inj (b.link d q h2).2 hb.1 h4.1 hb.2.2 (by rw [h4.2.1, h5]))
      have hlink : ∀ d q, (t.conns d).peer = some q → (s.conns d).peer = some q := by
        intro d q h
        rw [k.link] at h
        split at h
        · cases h
        · exact h
      refine ⟨fun c h1 h2 => ?_, fun d q h1 h2 => ?_, fun q h1 h2 h3 => ?_, fun q h1 h2 h3 => ?_, fun q d h1 h2 => ?_⟩
      · rw [k.n] at h1; rw [(k.fix c).torn] at h2; rw [(k.fix c).term]; exact o.term c h1 h2
      · rw [(k.fix d).torn] at h1
        rw [(k.fix d).active, (k.fix d).manual]
        by_cases e : q = p
        · subst e
          have h3 := hd d h1 (hlink d q h2)
          rw [k.link, if_pos] at h2
          · cases h2
          · rcases h3 with h | h
            · exact .inl h.symm
            · exact .inr (.inr h)
        · rw [hq q e]; exact o.link d q h1 (hlink d q h2)
      · by_cases e : q = p
        · subst e; rw [htp] at h2; simp at h2
        · rw [k.m] at h1
          rw [hq q e] at h2 h3 ⊢
          obtain ⟨u1, u2, u3, u4, u5⟩ := o.up q h1 h2 h3
          refine ⟨by rw [(k.fix _).torn]; exact u1, hun _ q u1 u2 e, u3, fun d h4 h5 => ?_, by rw [lastReport_same s t _ k.cbs]; exact u5⟩
          rw [(k.fix d).torn] at h4
          exact u4 d h4 (hlink d q h5)
      · by_cases e : q = p
        · subst e; rw [htp] at h2; simp at h2
        · rw [k.m] at h1
          rw [hq q e] at h2 h3 ⊢
          obtain ⟨d1, d2⟩ := o.down q h1 h2 h3
          exact ⟨by rw [(k.fix _).torn]; exact d1, by rw [lastReport_same s t _ k.cbs]; exact d2⟩
      · rw [k.m] at h1
        by_cases e : q = p
        · subst e; rw [htp] at h2 ⊢; exact o.side q d h1 h2
        · rw [hq q e] at h2 ⊢; exact o.side q d h1 h2
  | setAddr pid a =>
    simp only [step, Option.some.injEq] at h; subst h
    unfold setPeerAddr; split
    · exact o.quiet rfl rfl rfl rfl rfl
    · exact o.chg (chg_set _ _ _) ⟨rfl, rfl, rfl, Iff.rfl, fun _ h => h, fun _ h => .inl h⟩
  | connPeer pid n =>
    simp only [step, Option.some.injEq] at h; subst h
    cases dial_eff s pid n with
    | err e h ht => rw [ht]; exact o.quiet rfl rfl rfl rfl rfl
    | ok p hf ha k =>
      refine o.chg k ⟨rfl, rfl, rfl, ?_, ?_, by simp [redial]⟩
      · simp only [redial]; split
        · rename_i h; simp [h]
        · exact Iff.rfl
      · intro h _
        simp only [redial] at h ⊢
        split
        · rename_i h2; simp [h2] at h
        · rfl
  | accept a cert =>
    simp only [step] at h; split at h <;> simp at h; subst h
    exact o.grow b _ rfl rfl
  | connect a =>
    simp only [step, Option.some.injEq] at h; subst h
    exact o.grow b _ rfl rfl
  | established c cert draw =>
    simp only [step] at h
    split at h
    · rename_i hc
      injection h with h
      have k := est_eff g s c cert draw
      rw [h] at k
      refine o.mild k.n k.m (fun d => ?_) k.link k.cbs (fun p => ?_)
      · by_cases e : d = c
        · subst e; exact ⟨k.active, k.manual, by rw [k.term]; exact id, k.torn⟩
        · have := k.other d e
          exact ⟨this.active, this.manual, by rw [this.term]; exact id, this.torn⟩
      · rcases k.peers with hp | ⟨q, _, _, hp⟩
        · rw [hp]; exact .refl _ _
        · rw [hp]; exact mild_upd ⟨by simp, by simp, by simp, by simp, by simp, fun c h => .inl (by simpa using h)⟩ p
    · cases h
  | ping c x draw =>
    simp only [step] at h
    split at h
    · rename_i hc
      injection h with h; rw [← h]
      refine o.ping b hc.1 x draw (fun h1 h2 => ?_)
      obtain ⟨i1, i2, i3⟩ := hid _ c (by simp only [identity]; rw [if_pos ⟨h1, h2⟩])
      refine ⟨i1, fun p h3 h4 d h5 h6 => ?_⟩
      rcases i3 p h3 h4 d h5 h6 with h | h
      · exact .inl h
      · exact .inr h.2
    · cases h
  | pong c x draw =>
    simp only [step] at h
    split at h
    · rename_i hc
      injection h with h; rw [← h]
      have hid' : ∀ p, OutHs g s c x p → p < s.m ∧ (s.peers p).freed = false ∧ (s.peers p).id = who c ∧ (s.conns c).manual = false ∧
          ∀ d, (s.conns d).torn = false → (s.conns d).peer = some p → d = c := by
        intro p hh
        have hb := b.find_iff.mp hh.found
        obtain ⟨i1, i2, i3⟩ := hid _ c (by simp only [identity]; rw [if_pos ⟨hh.claimed, hh.active⟩])
        refine ⟨hb.1, hb.2.2, by rw [hb.2.1, i1], i2 hh.active, fun d h5 h6 => ?_⟩
        rcases i3 p hh.found hh.state d h5 h6 with h | h
        · exact h
        · rw [hh.active] at h; cases h.1
      cases pong_eff g s c x draw with
      | nop e => exact o.same0 e
      | reject p hh hn e ea =>
        refine o.chg e ⟨by simp, by simp, by simp, by simp, by simp, ?_⟩
        rintro d (h | h)
        · exact .inl (.inl (by simpa using h))
        · simp only at h; injection h with h; subst h; right; exact (hid' p hh).2.2.1.symm
      | accept p hh hn e =>
        obtain ⟨h1, h2, h3, h4, h5⟩ := hid' p hh
        refine o.fin b e hc.1 h1 h2 hh.state hh.term h3 (fun _ => h4) (by simp) (by simp) (by simp) ?_ ?_
        · intro d h; simp only at h; injection h with h; subst h; exact h3.symm
        · intro d h6 h7; exact .inl (h5 d h6 h7)
      | ub p _ _ e =>
        obtain ⟨v, k | k, e⟩ := e <;> rw [e]
        · exact (o.same0 k).quiet rfl rfl rfl rfl rfl
        · exact (o.chg k ⟨rfl, rfl, rfl, Iff.rfl, fun _ h => h, fun _ h => .inl h⟩).quiet rfl rfl rfl rfl rfl
      | wait _ _ _ _ e => exact o.chg e ⟨rfl, rfl, rfl, Iff.rfl, fun _ h => h, fun _ h => .inl h⟩
      | beat _ _ _ _ _ _ e => exact o.chg e ⟨rfl, rfl, rfl, Iff.rfl, fun _ h => h, fun _ h => .inl h⟩
      | beatUb _ _ _ _ _ e =>
        obtain ⟨v, k, e⟩ := e; rw [e]
        exact (o.chg k ⟨rfl, rfl, rfl, Iff.rfl, fun _ h => h, fun _ h => .inl h⟩).quiet rfl rfl rfl rfl rfl
    · cases h
  | deferred draw =>
    simp only [step] at h
    split at h
    · cases h
    · rename_i x c rest he
      injection h with h; rw [← h]
      have hc := b.posted _ (by rw [he]; exact List.mem_cons_self) c rfl
      have b1 : Basic { s with posted := rest } :=
        ⟨b.known, b.uniq, b.live, b.link, b.idx, fun e h => b.posted e (by rw [he]; exact List.mem_cons_of_mem _ h)⟩
      have o1 : Ord who { s with posted := rest } := o.quiet rfl rfl rfl rfl rfl
      refine o1.ping b1 hc x draw (fun h1 h2 => ?_)
      obtain ⟨i1, i2, i3⟩ := hid (pidOf g (s.conns c) x.claimed) c (by simp only [identity, he]; rw [if_pos ⟨h1, h2⟩])
      refine ⟨i1, fun p h3 h4 d h5 h6 => ?_⟩
      rcases i3 p h3 h4 d h5 h6 with h | h
      · exact .inl h
      · exact .inr h.2
    · injection h with h; rw [← h]; exact o.quiet rfl rfl rfl rfl rfl
  | lost c =>
    simp only [step] at h; split at h <;> simp at h; subst h
    refine o.mild rfl rfl (fun d => ?_) (fun d => ?_) rfl (fun p => .refl _ _)
    · simp only [setConn, upd_apply]
      split
      · rename_i e; subst e; exact ⟨rfl, rfl, fun _ => rfl, rfl⟩
      · exact ⟨rfl, rfl, id, rfl⟩
    · simp only [setConn, upd_apply]
      split
      · rename_i e; subst e; rfl
      · rfl
  | teardown c =>
    simp only [step] at h
    split at h
    rotate_left
    · cases h
    rename_i hc
    injection h with h
    have k := tear_eff s c
    rw [h] at k
    obtain ⟨k, e⟩ := k
    have hcl : ∀ d, (t.conns d).peer = (s.conns d).peer ∧ (t.conns d).active = (s.conns d).active ∧ (t.conns d).manual = (s.conns d).manual ∧
        (t.conns d).term = (s.conns d).term ∧ ((t.conns d).torn = true ↔ (s.conns d).torn = true ∨ d = c) := by
      intro d
      rw [k.conns, upd_apply]
      split
      · rename_i e; subst e; simp
      · rename_i e; simp [e]
    have hterm : ∀ d, d < t.n → (t.conns d).torn = true → (t.conns d).term = true := by
      intro d h1 h2
      rw [(hcl d).2.2.2.1]
      rw [k.n] at h1
      rcases (hcl d).2.2.2.2.mp h2 with h | h
      · exact o.term d h1 h
      · rw [h]; exact hc.2.1
    have htf : ∀ d, (t.conns d).torn = false → (s.conns d).torn = false ∧ d ≠ c := by
      intro d h
      have := (hcl d).2.2.2.2
      rw [h] at this
      simp only [Bool.false_eq_true, false_iff, not_or, Bool.not_eq_true] at this
      exact this
    have htf' : ∀ d, (s.conns d).torn = false → d ≠ c → (t.conns d).torn = false := by
      intro d h1 h2
      have := (hcl d).2.2.2.2
      rw [h1] at this
      simp only [Bool.false_eq_true, false_or, h2, iff_false, Bool.not_eq_true] at this
      exact this
    -- the two cases in which a peer is concerned
    have conc : ∀ p x, (s.conns c).peer = some p → t.peers = upd s.peers p x → t.cbs = s.cbs ++ [(c, false)] →
        x.id = (s.peers p).id → x.freed = (s.peers p).freed → x.conn = (s.peers p).conn → x.state = .disconnected →
        x.inbound = none → (∀ d, x.outbound = some d → (s.peers p).outbound = some d) → Ord who t := by
      intro p x hp hpeers hcbs xi xf xc xs xin xout
      have hpm := (b.link c p hp).2
      obtain ⟨l1, l2, l3⟩ := o.link c p hc.2.2 hp
      have hq : ∀ q, q ≠ p → t.peers q = s.peers q := fun q h => by rw [hpeers, upd_apply, if_neg h]
      have htp : t.peers p = x := by rw [hpeers, upd_self]
      have hrep : ∀ d, lastReport t d = if d = c then some false else lastReport s d := fun d => lastReport_append s t d c false hcbs
      refine ⟨hterm, fun d q h1 h2 => ?_, fun q h1 h2 h3 => ?_, fun q h1 h2 h3 => ?_, fun q d h1 h2 => ?_⟩
      · rw [(hcl d).1] at h2
        rw [(hcl d).2.1, (hcl d).2.2.1]
        have := o.link d q (htf d h1).1 h2
        by_cases e : q = p
        · subst e; rw [htp, xi, xf]; exact this
        · rw [hq q e]; exact this
      · rw [k.m] at h1
        by_cases e : q = p
        · subst e; rw [htp] at h3; exact absurd xs h3
        · rw [hq q e] at h2 h3 ⊢
          obtain ⟨u1, u2, u3, u4, u5⟩ := o.up q h1 h2 h3
          have hne : (s.peers q).conn ≠ c := by
            intro h; rw [h, hp] at u2; injection u2 with u2; exact e u2.symm
          refine ⟨htf' _ u1 hne, by rw [(hcl _).1]; exact u2, u3, fun d h4 h5 => ?_, by rw [hrep, if_neg hne]; exact u5⟩
          rw [(hcl d).1] at h5
          exact u4 d (htf d h4).1 h5
      · rw [k.m] at h1
        by_cases e : q = p
        · subst e
          rw [htp, xc]
          by_cases hst : (s.peers q).state = .disconnected
          · obtain ⟨d1, d2⟩ := o.down q h1 l1 hst
            refine ⟨(hcl _).2.2.2.2.mpr (.inl d1), ?_⟩
            rw [hrep]
            split
            · simp
            · exact d2
          · obtain ⟨u1, u2, u3, u4, u5⟩ := o.up q h1 l1 hst
            have := u4 c hc.2.2 hp
            rw [← this]
            exact ⟨(hcl _).2.2.2.2.mpr (.inr rfl), by rw [hrep, if_pos rfl]; simp⟩
        · rw [hq q e] at h2 h3 ⊢
          obtain ⟨d1, d2⟩ := o.down q h1 h2 h3
          refine ⟨(hcl _).2.2.2.2.mpr (.inl d1), ?_⟩
          rw [hrep]
          split
          · simp
          · exact d2
      · rw [k.m] at h1
        by_cases e : q = p
        · subst e
          rw [htp] at h2 ⊢
          rw [xi]
          rcases h2 with h | h
          · rw [xin] at h; cases h
          · exact o.side q d h1 (.inr (xout d h))
        · rw [hq q e] at h2 ⊢; exact o.side q d h1 h2
    have hdo : ∀ p d, (disc (s.peers p)).outbound = some d → (s.peers p).outbound = some d := by
      intro p d h
      rw [disc_outbound] at h
      split at h
      · exact h
      · cases h
    cases e with
    | nobody hp hpeers hposted hcbs hub =>
      have hnone : (s.conns c).peer = none := by
        rcases hp with h | h
        · exact h
        · cases e : (s.conns c).peer with
          | none => rfl
          | some p =>
            have := (o.link c p hc.2.2 e).2.2 h.1
            rw [h.2] at this; cases this
      refine ⟨hterm, fun d q h1 h2 => ?_, fun q h1 h2 h3 => ?_, fun q h1 h2 h3 => ?_, fun q d h1 h2 => ?_⟩
      · rw [(hcl d).1] at h2
        rw [(hcl d).2.1, (hcl d).2.2.1, hpeers]
        exact o.link d q (htf d h1).1 h2
      · rw [k.m] at h1
        rw [hpeers] at h2 h3 ⊢
        obtain ⟨u1, u2, u3, u4, u5⟩ := o.up q h1 h2 h3
        have hne : (s.peers q).conn ≠ c := by
          intro h; rw [h, hnone] at u2; cases u2
        refine ⟨htf' _ u1 hne, by rw [(hcl _).1]; exact u2, u3, fun d h4 h5 => ?_, by rw [lastReport_same s t _ hcbs]; exact u5⟩
        rw [(hcl d).1] at h5
        exact u4 d (htf d h4).1 h5
      · rw [k.m] at h1
        rw [hpeers] at h2 h3 ⊢
        obtain ⟨d1, d2⟩ := o.down q h1 h2 h3
        exact ⟨(hcl _).2.2.2.2.mpr (.inl d1), by rw [lastReport_same s t _ hcbs]; exact d2⟩
      · rw [k.m] at h1
        rw [hpeers] at h2 ⊢; exact o.side q d h1 h2
    | ub p hp hm hf hpeers hposted hcbs hub =>
      have := (o.link c p hc.2.2 hp).1
      rw [hf] at this; cases this
    | preempt p x hp hm hf hh hpeers hposted hcbs hub =>
      exact conc p _ hp hpeers hcbs (by simp) (by simp) (by simp) (by simp) (by simp) (hdo p)
    | backoff p hp hm hf hh hpeers hposted hcbs hub =>
      exact conc p _ hp hpeers hcbs (by simp) (by simp) (by simp) (by simp) (by simp) (by simpa using hdo p)
  | retry p =>
    simp only [step] at h
    split at h
    rotate_left
    · cases h
    rename_i hg
    injection h with h
    have k := retry_eff s p
    rw [h] at k
    have hw := hretry p rfl
    have hst : (s.peers p).state = .disconnected := by
      by_cases e : (s.peers p).state = .disconnected
      · exact e
      · have := (o.up p hg.1 hg.2.1 e).2.2.1
        rw [hg.2.2] at this; cases this
    have hq : ∀ q, q ≠ p → t.peers q = s.peers q := fun q h => by rw [k.peers, upd_apply, if_neg h]
    have htp : t.peers p = { s.peers p with outbound := some s.n, retryArmed := true, dials := (s.peers p).dials + 1 } := by
      rw [k.peers, upd_self]
    have hrep : ∀ d, lastReport t d = lastReport s d := fun d => lastReport_same s t d k.cbs
    refine ⟨fun c h1 h2 => ?_, fun c q h1 h2 => ?_, fun q h1 h2 h3 => ?_, fun q h1 h2 h3 => ?_, fun q c h1 h2 => ?_⟩
    · rw [k.n] at h1
      by_cases e : c = s.n
      · rw [e, k.newc.torn] at h2; cases h2
      · rw [(k.fix c e).torn] at h2; rw [(k.fix c e).term]; exact o.term c (by omega) h2
    · rw [k.link] at h2
      by_cases e : c = s.n
      · rw [if_pos e] at h2
        injection h2 with h2; subst h2; subst e
        rw [htp, k.newc.manual]
        exact ⟨hg.2.1, hw.symm, fun _ => rfl⟩
      · rw [if_neg e] at h2
        rw [(k.fix c e).torn] at h1
        rw [(k.fix c e).active, (k.fix c e).manual]
        have := o.link c q h1 h2
        by_cases e2 : q = p
        · subst e2; rw [htp]; exact this
        · rw [hq q e2]; exact this
    · rw [k.m] at h1
      by_cases e : q = p
      · subst e; rw [htp] at h3; exact absurd hst h3
      · rw [hq q e] at h2 h3 ⊢
        obtain ⟨u1, u2, u3, u4, u5⟩ := o.up q h1 h2 h3
        have h6 : (s.peers q).conn ≠ s.n := by have := (b.idx q h1).1; omega
        refine ⟨by rw [(k.fix _ h6).torn]; exact u1, by rw [k.link, if_neg h6]; exact u2, u3, fun d h4 h5 => ?_, by rw [hrep]; exact u5⟩
        rw [k.link] at h5
        split at h5
        · injection h5 with h5; exact absurd h5.symm e
        · rename_i h7; rw [(k.fix d h7).torn] at h4; exact u4 d h4 h5
    · rw [k.m] at h1
      have h6 : (s.peers q).conn ≠ s.n := by have := (b.idx q h1).1; omega
      have h7 : (t.peers q).conn = (s.peers q).conn := by
        by_cases e : q = p
        · subst e; rw [htp]
        · rw [hq q e]
      rw [h7, (k.fix _ h6).torn, hrep]
      by_cases e : q = p
      · subst e; exact o.down q h1 hg.2.1 hst
      · rw [hq q e] at h2 h3; exact o.down q h1 h2 h3
    · rw [k.m] at h1
      by_cases e : q = p
      · subst e
        rw [htp] at h2 ⊢
        rcases h2 with h | h
        · exact o.side q c h1 (.inl h)
        · simp only at h; injection h with h; subst h; exact hw
      · rw [hq q e] at h2 ⊢; exact o.side q c h1 h2
  | pingTimer p =>
    simp only [step] at h
    split at h
    · injection h with h
      have k := timer_eff s p
      rw [h] at k
      cases k with
      | wait _ e => exact o.chg e ⟨rfl, rfl, rfl, Iff.rfl, fun _ h => h, fun _ h => .inl h⟩
      | beat _ _ _ e => exact o.chg e ⟨rfl, rfl, rfl, Iff.rfl, fun _ h => h, fun _ h => .inl h⟩
      | ub _ e =>
        obtain ⟨v, x, k, e, hx⟩ := e; rw [e]
        exact (o.chg k (by rcases hx with hx | hx <;> rw [hx] <;> exact ⟨rfl, rfl, rfl, Iff.rfl, fun _ h => h, fun _ h => .inl h⟩)).quiet rfl rfl rfl rfl rfl
    · cases h

end PeerNet
end Salticidae
