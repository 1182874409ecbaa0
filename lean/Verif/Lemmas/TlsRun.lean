import Verif.Lemmas.TlsInv
import Verif.Lemmas.ConnIO2
/-
Histories of a worker with TLS connections.
-/
namespace Salticidae.Tls
open ConnIO (Cfg Cb RecvEnd SendRes Core held frames rule MaskOk)

theorem inv_wstep {cfg : Cfg} (ok : cfg.Ok) (q : Nat → Nat → Bool) {w : Worker cfg.ow}
    (h : ∀ i, Inv cfg (w.conns i)) (e : Nat × Ev) : ∀ i, Inv cfg ((w.step cfg q e).conns i) := by
  intro i
  simp only [Worker.step]
  split
  · exact inv_step ok _ _ (h e.1) e.2
  · exact h i

theorem inv_run {cfg : Cfg} (ok : cfg.Ok) (q : Nat → Nat → Bool) (evs : List (Nat × Ev)) {w : Worker cfg.ow}
    (h : ∀ i, Inv cfg (w.conns i)) : ∀ i, Inv cfg ((w.run cfg q evs).conns i) := by
  induction evs generalizing w with
  | nil => exact h
  | cons e evs ih => exact ih (inv_wstep ok q h e)

/-! What one event leaves alone. -/

/-- A receiving callback. -/
structure Reads (t u : St ow) : Prop where
  same : SameTls t u
  closed : u.c.closed = t.c.closed
  killed : t.c.killed = true → u.c.killed = true
  readySend : u.c.readySend = t.c.readySend
  sendq : u.c.sendq = t.c.sendq
  notif : u.c.notif = t.c.notif
  written : u.c.written = t.c.written

theorem reads_of {cfg : Cfg} {t t0 : St cfg.ow} (e0 : Reads t t0) {d : Cb (ConnIO.St cfg.ow)} {r : Cb (St cfg.ow)}
    (hr : ReadOk cfg t0 d r) (hd : ConnIO.ReadSpec cfg t0.c d) (eq : Bool) :
    Reads t (caught (r, eq)).1 ∧ Reads t (uncaught (r, eq)).1 := by
  have hk := hd.keep
  have hkl := hd.killed
  obtain ⟨e1, e2, e3, e4⟩ := hr
  subst e1
  have e3' := e0.same.trans e3
  cases r with
  | ok u =>
    simp only [Cb.st, Cb.c] at hk hkl e3'
    have : Reads t u := ⟨e3', by rw [hk, ← e0.closed], fun h => hkl (e0.killed h), by rw [hk, ← e0.readySend],
      by rw [hk, ← e0.sendq], by rw [hk, ← e0.notif], by rw [hk, ← e0.written]⟩
    exact ⟨this, this⟩
  | throw u =>
    simp only [Cb.st, Cb.c] at hk hkl e3'
    have hs : ∀ c, SameTls t { u with c := c } := fun c =>
      ⟨e3'.1, e3'.2, e3'.3, e3'.4, e3'.5, e3'.6, e3'.7, e3'.8⟩
    refine ⟨⟨hs _, ?_, fun _ => rfl, ?_, ?_, ?_, ?_⟩, ⟨hs _, ?_, fun h => hkl (e0.killed h), ?_, ?_, ?_, ?_⟩⟩ <;>
      simp only [caught, uncaught]
    · rw [hk, ← e0.closed]
    · rw [hk, ← e0.readySend]
    · rw [hk, ← e0.sendq]
    · rw [hk, ← e0.notif]
    · rw [hk, ← e0.written]
    · rw [hk, ← e0.closed]
    · rw [hk, ← e0.readySend]
    · rw [hk, ← e0.sendq]
    · rw [hk, ← e0.notif]
    · rw [hk, ← e0.written]

theorem Reads.refl (t : St ow) : Reads t t := ⟨.refl t, rfl, id, rfl, rfl, rfl, rfl⟩

theorem reads_readable {cfg : Cfg} (ok : cfg.Ok) (q : Nat → Bool) (eq : Bool) {t : St cfg.ow} (h : Inv cfg t)
    (as : List ReadAns) :
    (step cfg q eq t (.readable as)).1 = t ∨ (t.phase = .opened ∧ Reads t (step cfg q eq t (.readable as)).1) := by
  unfold step
  split
  · exact Or.inl rfl
  simp only
  split
  · rename_i hc
    have hcl : t.c.closed = false := by simpa using hc.2.1
    have ha := h.act.mpr hc.2.2
    have hi := h.plain ha
    obtain ⟨ks, hr⟩ := recvData_ok ok q as eq h.framed h.core
    have hd := ConnIO.recvData_spec ok q ks hi.core (hi.pollSleep hcl) hc.1 (by
      rcases hi.mask ha with h | h | h
      · rw [hcl] at h; cases h
      · exact Or.inl h
      · exact Or.inr h.2)
    exact Or.inr ⟨hc.2.2, (reads_of (.refl t) hr hd _).1⟩
  · exact Or.inl rfl

theorem reads_poll {cfg : Cfg} (ok : cfg.Ok) (q : Nat → Bool) (eq : Bool) {t : St cfg.ow} (h : Inv cfg t)
    (as : List ReadAns) :
    (step cfg q eq t (.poll as)).1 = t ∨ (t.phase = .opened ∧ Reads t (step cfg q eq t (.poll as)).1) := by
  unfold step
  split
  · exact Or.inl rfl
  simp only
  split
  · rename_i hc
    have hcl : t.c.closed = false := by simpa using hc.2
    have ha : t.c.active = true := by
      cases hh : t.c.active with
      | true => rfl
      | false => have := (h.idle hh).2.2.1; rw [hc.1] at this; cases this
    have hi := h.plain ha
    have hsl : t.c.sleep = true := by rw [← hi.pollSleep hcl]; exact hc.1
    right
    refine ⟨h.act.mp ha, ?_⟩
    split
    · generalize ht0 : ({ t with c := { t.c with
          poll := false, sleep := false, tries := t.c.tries + 1, delivered := t.c.delivered ++ [t.c.msg] } } :
            St cfg.ow) = t0
      have hcore : Core cfg t0.c := by rw [← ht0]; exact ConnIO.core_poll hi.core hsl
      have hmask : t.c.killed = true ∨ MaskOk t.c := by
        rcases hi.mask ha with h | h | h
        · rw [hcl] at h; cases h
        · exact Or.inl h
        · exact Or.inr h
      obtain ⟨ks, hr⟩ := onRead_ok ok q as eq (t := t0)
        (by rw [← ht0]; exact ⟨h.framed.len, h.framed.pos⟩) hcore (by rw [← ht0]; exact h.pend)
      have hd := ConnIO.onRead_spec ok q ks hcore (by rw [← ht0]) (by rw [← ht0]; exact hmask)
      have e0 : Reads t t0 := by rw [← ht0]; exact ⟨⟨rfl, rfl, rfl, rfl, rfl, rfl, rfl, rfl⟩, rfl, id, rfl, rfl, rfl, rfl⟩
      exact (reads_of e0 hr hd _).2
    · exact ⟨⟨rfl, rfl, rfl, rfl, rfl, rfl, rfl, rfl⟩, rfl, id, rfl, rfl, rfl, rfl⟩
  · exact Or.inl rfl

/-- A sending callback. -/
structure Sends (t u : St ow) : Prop where
  was : t.hs = true
  phase : u.phase = t.phase
  due : u.due = t.due
  calls : u.calls = t.calls
  hs : u.hs = t.hs
  yes : u.yes = t.yes
  closed : u.c.closed = t.c.closed
  killed : t.c.killed = true → u.c.killed = true
  written : u.c.written = t.c.written
  send : ConnIO.SendOk t.c → ConnIO.SendOk u.c

theorem sends_loop {cfg : Cfg} {t : St cfg.ow} (h : Inv cfg t) (hhs : t.hs = true)
    (t0 : St cfg.ow) (h0 : t0 = { t with c := { t.c with notif := t0.c.notif, readOn := t0.c.readOn, writeOn := t0.c.writeOn } })
    (ws : List (Nat × WriteAns)) (eq : Bool) : Sends t (sendLoop ws eq t0 t0.bufs).1 := by
  have e1 : t0.retry = t.retry := by rw [h0]
  have e2 : t0.enc = t.enc := by rw [h0]
  have e3 : t0.bufs = t.bufs := by rw [h0]
  have e4 : t0.c.sent = t.c.sent := by rw [h0]
  have e5 : t0.c.sendq = t.c.sendq := by rw [h0]
  have hs := sendLoop_ok ws eq t0 t0.bufs (by rw [e1, e2, e3, e4]; exact h.enc)
  obtain ⟨rs, hp⟩ := send_plain ws eq t0 t0.bufs
  rw [e3, ← h.bufs] at hp
  rw [e3] at hs ⊢
  generalize sendLoop ws eq t0 t.bufs = r at hs hp
  have hsp := ConnIO.sendLoop_spec rs t0.c t.c.sendq
  rw [← hp] at hsp
  have k := hsp.keep
  have kk : r.1.c = { t.c with
      notif := r.1.c.notif, sendq := r.1.c.sendq, readOn := r.1.c.readOn,
      writeOn := r.1.c.writeOn, readySend := r.1.c.readySend, killed := r.1.c.killed, sent := r.1.c.sent } := by
    rw [k, h0]
  refine ⟨hhs, by rw [hs.phase, h0], by rw [hs.due, h0], by rw [hs.calls, h0], by rw [hs.hs, h0], by rw [hs.yes, h0],
    by rw [kk], ?_, by rw [kk], ?_⟩
  · intro hk
    have : t0.c.killed = t.c.killed := by rw [h0]
    rcases hsp.mask with h | h | h
    · rw [h.2.2.2, this, hk]
    · rw [h.2.2.2, this, hk]
    · exact h
  · intro hso
    rw [hp, ← e5]
    exact ConnIO.sendOk_send hso t0.c rs e5

theorem sends_notified {cfg : Cfg} (q : Nat → Bool) (eq : Bool) {t : St cfg.ow} (h : Inv cfg t)
    (ws : List (Nat × WriteAns)) :
    (step cfg q eq t (.notified ws)).1 = t ∨ Sends t (step cfg q eq t (.notified ws)).1 := by
  unfold step
  split
  · exact Or.inl rfl
  simp only
  split
  · rename_i hc
    right
    split
    · exact sends_loop h hc.2.2 _ rfl ws eq
    · rename_i hrs
      refine ⟨hc.2.2, rfl, rfl, rfl, rfl, rfl, rfl, id, rfl, fun hso => ⟨hso.1, ?_⟩⟩
      right; right; left
      simpa using hrs
  · exact Or.inl rfl

theorem sends_writable {cfg : Cfg} (q : Nat → Bool) (eq : Bool) {t : St cfg.ow} (h : Inv cfg t)
    (ws : List (Nat × WriteAns)) :
    (step cfg q eq t (.writable ws)).1 = t ∨ Sends t (step cfg q eq t (.writable ws)).1 := by
  unfold step
  split
  · exact Or.inl rfl
  simp only
  split
  · rename_i hc
    exact Or.inr (sends_loop h hc.2.2 t rfl ws eq)
  · exact Or.inl rfl

/-! Refusals, and that a handshake is watched. -/

structure Inv2 (t : St ow) : Prop where
  refused : t.calls ≠ 0 → t.yes = false → t.c.killed = true ∨ t.c.closed = true
  watch : t.phase = .handshake → t.c.closed = true ∨ t.c.readOn = true ∨ t.c.writeOn = true

theorem inv2_init (m : Msg ow) : Inv2 (init m) := ⟨by simp [init], by simp [init]⟩

theorem inv2_read {t u : St ow} (h : Inv2 t) (hp : t.phase = .opened) (r : Reads t u) : Inv2 u := by
  refine ⟨?_, by rw [r.same.phase, hp]; simp⟩
  rw [r.same.calls, r.same.yes, r.closed]
  intro h1 h2; exact (h.refused h1 h2).imp r.killed id

theorem inv2_send {cfg : Cfg} {t u : St cfg.ow} (hi : Inv cfg t) (h : Inv2 t) (r : Sends t u) : Inv2 u := by
  refine ⟨?_, by rw [r.phase]; intro hh; exact absurd hh (hi.shaken r.was)⟩
  rw [r.calls, r.yes, r.closed]
  intro h1 h2; exact (h.refused h1 h2).imp r.killed id

theorem inv2_step {cfg : Cfg} (ok : cfg.Ok) (q : Nat → Bool) (eq : Bool) {t : St cfg.ow} (hi : Inv cfg t)
    (h : Inv2 t) (ev : Ev) : Inv2 (step cfg q eq t ev).1 := by
  cases ev with
  | readable as => rcases reads_readable ok q eq hi as with e | ⟨hp, r⟩; rw [e]; exact h; exact inv2_read h hp r
  | poll as => rcases reads_poll ok q eq hi as with e | ⟨hp, r⟩; rw [e]; exact h; exact inv2_read h hp r
  | notified ws => rcases sends_notified q eq hi ws with e | r; rw [e]; exact h; exact inv2_send hi h r
  | writable ws => rcases sends_writable q eq hi ws with e | r; rw [e]; exact h; exact inv2_send hi h r
  | arrive bs => unfold step; split; exact h; simp only; split; exact h; exact ⟨h.refused, h.watch⟩
  | peerClose => unfold step; split; exact h; exact ⟨h.refused, h.watch⟩
  | write d acc addr => unfold step; split; exact h; simp only; split; exact ⟨h.refused, h.watch⟩; exact h
  | sockError => unfold step; split; exact h; simp only; split; exact ⟨by simp, h.watch⟩; exact h
  | teardown lv => unfold step; split; exact h; simp only; split; exact h; exact ⟨by simp, by simp⟩
  | shake v ans =>
    unfold step
    split
    · exact h
    simp only
    split
    · rename_i hc
      obtain ⟨b, hb⟩ : ∃ b, (if v then { t with c := { t.c with readySend := true } } else t) =
          { t with c := { t.c with readySend := b } } := by
        cases v with
        | true => exact ⟨true, rfl⟩
        | false => exact ⟨t.c.readySend, rfl⟩
      unfold shake
      rw [hb]
      simp only
      cases ans with
      | fatal => exact ⟨by simp, h.watch⟩
      | wantRead => exact ⟨h.refused, by simp⟩
      | wantWrite => exact ⟨h.refused, by simp⟩
      | done cert => cases cert <;> exact ⟨by simpa using h.refused, by simp⟩
    · exact h
  | callback accept =>
    unfold step
    split
    · exact h
    simp only
    split
    · split
      · rename_i hcl
        exact ⟨fun _ _ => Or.inr hcl, fun _ => Or.inl hcl⟩
      · split
        · rename_i ha; subst ha
          exact ⟨by simp, by simp⟩
        · exact ⟨by simp, h.watch⟩
    · exact h

/-! What is watched in the handshake. -/

/-- The last answer of SSL_do_handshake on connection i. -/
def lastAnswer (i : Nat) (evs : List (Nat × Ev)) : Option HsAns := evs.foldl (lastAnswer.next i) none
where
  next (i : Nat) (last : Option HsAns) : Nat × Ev → Option HsAns
    | (j, .shake _ ans) => if j = i then some ans else last
    | _ => last

def wants (last : Option HsAns) (t : St ow) : Prop :=
  match last with
  | none => t.c.readOn = true ∧ t.c.writeOn = true
  | some .wantRead => t.c.readOn = true ∧ t.c.writeOn = false
  | some .wantWrite => t.c.readOn = false ∧ t.c.writeOn = true
  | some .fatal => t.c.killed = true
  | some (.done _) => False

def Inv3 (last : Option HsAns) (t : St ow) : Prop :=
  t.phase = .handshake → t.c.crashed = false ∧ (t.c.closed = true ∨ wants last t)

theorem wants_same {last : Option HsAns} {t u : St ow} (h : wants last t) (h1 : u.c.readOn = t.c.readOn) (h2 : u.c.writeOn = t.c.writeOn)
    (h3 : t.c.killed = true → u.c.killed = true) : wants last u := by
  unfold wants at *
  rcases last with _ | (_ | _ | _ | _)
  · rw [h1, h2]; exact h
  · exact h
  · simp only at *; rw [h1, h2]; exact h
  · simp only at *; rw [h1, h2]; exact h
  · exact h3 h

theorem inv3_same {last : Option HsAns} {t u : St ow} (h : Inv3 last t) (h0 : u.phase = t.phase) (hc : u.c.crashed = t.c.crashed)
    (hcl : t.c.closed = true → u.c.closed = true) (h1 : u.c.readOn = t.c.readOn) (h2 : u.c.writeOn = t.c.writeOn)
    (h3 : t.c.killed = true → u.c.killed = true) : Inv3 last u := by
  intro hp
  rw [h0] at hp
  rw [hc]
  exact ⟨(h hp).1, (h hp).2.imp hcl fun w => wants_same w h1 h2 h3⟩

theorem inv3_init (m : Msg ow) : Inv3 none (init m) := fun _ => ⟨rfl, .inr ⟨rfl, rfl⟩⟩

theorem inv3_step {cfg : Cfg} (ok : cfg.Ok) (q : Nat → Bool) (eq : Bool) {t : St cfg.ow} {last : Option HsAns} (hi : Inv cfg t)
    (h2 : Inv2 t) (h : Inv3 last t) (i : Nat) (ev : Ev) : Inv3 (lastAnswer.next i last (i, ev)) (step cfg q eq t ev).1 := by
  cases ev with
  | readable as =>
    rcases reads_readable ok q eq hi as with e | ⟨hp, r⟩
    · rw [e]; exact h
    · intro hh; rw [r.same.phase, hp] at hh; cases hh
  | poll as =>
    rcases reads_poll ok q eq hi as with e | ⟨hp, r⟩
    · rw [e]; exact h
    · intro hh; rw [r.same.phase, hp] at hh; cases hh
  | notified ws =>
    rcases sends_notified q eq hi ws with e | r
    · rw [e]; exact h
    · intro hh; rw [r.phase] at hh; exact absurd hh (hi.shaken r.was)
  | writable ws =>
    rcases sends_writable q eq hi ws with e | r
    · rw [e]; exact h
    · intro hh; rw [r.phase] at hh; exact absurd hh (hi.shaken r.was)
  | arrive bs => unfold step; split; exact h; simp only; split; exact h; exact inv3_same h rfl rfl id rfl rfl id
  | peerClose => unfold step; split; exact h; exact inv3_same h rfl rfl id rfl rfl id
  | write d acc addr => unfold step; split; exact h; simp only; split; exact inv3_same h rfl rfl id rfl rfl id; exact h
  | sockError => unfold step; split; exact h; simp only; split; exact inv3_same h rfl rfl id rfl rfl (fun _ => rfl); exact h
  | teardown lv =>
    unfold step
    split
    · exact h
    simp only
    split
    · exact h
    · exact fun hp => ⟨(h hp).1, .inl rfl⟩
  | callback accept =>
    unfold step
    split
    · exact h
    simp only
    split
    · split
      · exact inv3_same h rfl rfl id rfl rfl id
      · split
        · intro hp; cases hp
        · exact inv3_same h rfl rfl id rfl rfl (fun _ => rfl)
    · exact h
  | shake v ans =>
    have e : lastAnswer.next i last (i, .shake v ans) = some ans := by simp [lastAnswer.next]
    rw [e]
    unfold step
    split
    · rename_i hcr
      intro hp
      rw [(h hp).1] at hcr; cases hcr
    simp only
    split
    · rename_i hc
      have hcr := (h hc.1).1
      obtain ⟨b, hb⟩ : ∃ b, (if v then { t with c := { t.c with readySend := true } } else t) =
          { t with c := { t.c with readySend := b } } := by
        cases v with
        | true => exact ⟨true, rfl⟩
        | false => exact ⟨t.c.readySend, rfl⟩
      unfold shake
      rw [hb]
      simp only
      cases ans with
      | fatal => exact fun _ => ⟨hcr, .inr rfl⟩
      | wantRead => exact fun _ => ⟨hcr, .inr ⟨rfl, rfl⟩⟩
      | wantWrite => exact fun _ => ⟨hcr, .inr ⟨rfl, rfl⟩⟩
      | done cert => cases cert <;> (intro hp; cases hp)
    · rename_i hc
      intro hp
      refine ⟨(h hp).1, ?_⟩
      rcases h2.watch hp with g | g
      · exact .inl g
      · left
        cases hcl : t.c.closed with
        | true => rfl
        | false => exact absurd ⟨hp, by simp [hcl], g⟩ hc

/-! Sending without empty writes. -/

/-- The event writes no empty data. -/
def Ev.NonEmpty : Ev → Prop
  | .write d _ _ => d ≠ []
  | _ => True

theorem sendOk_step {cfg : Cfg} (ok : cfg.Ok) (q : Nat → Bool) (eq : Bool) {t : St cfg.ow} (hi : Inv cfg t)
    (h : t.hs = true → ConnIO.SendOk t.c) (hp : ∀ s ∈ t.c.sendq, s ≠ [])
    (hn : t.c.sendq ≠ [] → t.c.closed = true ∨ t.hs = true ∨ t.c.notif = true) (ev : Ev) (hev : ev.NonEmpty) :
    let u := (step cfg q eq t ev).1
    (u.hs = true → ConnIO.SendOk u.c) ∧ (∀ s ∈ u.c.sendq, s ≠ []) ∧
      (u.c.sendq ≠ [] → u.c.closed = true ∨ u.hs = true ∨ u.c.notif = true) := by
  have hread : ∀ u, Reads t u → (u.hs = true → ConnIO.SendOk u.c) ∧ (∀ s ∈ u.c.sendq, s ≠ []) ∧
      (u.c.sendq ≠ [] → u.c.closed = true ∨ u.hs = true ∨ u.c.notif = true) := by
    intro u r
    refine ⟨fun hh => ?_, by rw [r.sendq]; exact hp, by rw [r.sendq, r.closed, r.same.hs, r.notif]; exact hn⟩
    rw [r.same.hs] at hh
    exact ConnIO.sendOk_keep (h hh) r.sendq r.closed r.killed r.readySend r.notif
  have hsend : ∀ u, Sends t u → (u.hs = true → ConnIO.SendOk u.c) ∧ (∀ s ∈ u.c.sendq, s ≠ []) ∧
      (u.c.sendq ≠ [] → u.c.closed = true ∨ u.hs = true ∨ u.c.notif = true) := by
    intro u r
    have := r.send (h r.was)
    exact ⟨fun _ => this, this.1, fun _ => Or.inr (Or.inl (by rw [r.hs, r.was]))⟩
  cases ev with
  | readable as => rcases reads_readable ok q eq hi as with e | ⟨_, r⟩; rw [e]; exact ⟨h, hp, hn⟩; exact hread _ r
  | poll as => rcases reads_poll ok q eq hi as with e | ⟨_, r⟩; rw [e]; exact ⟨h, hp, hn⟩; exact hread _ r
  | notified ws => rcases sends_notified q eq hi ws with e | r; rw [e]; exact ⟨h, hp, hn⟩; exact hsend _ r
  | writable ws => rcases sends_writable q eq hi ws with e | r; rw [e]; exact ⟨h, hp, hn⟩; exact hsend _ r
  | arrive bs => unfold step; split; exact ⟨h, hp, hn⟩; simp only; split <;> exact ⟨h, hp, hn⟩
  | peerClose => unfold step; split; exact ⟨h, hp, hn⟩; exact ⟨h, hp, hn⟩
  | write d acc addr =>
    unfold step
    split
    · exact ⟨h, hp, hn⟩
    simp only
    split
    · have hq : ∀ s ∈ (t.bufs ++ [(⟨alloc addr (t.bufs.map Buf.addr), d⟩ : Buf)]).map Buf.data, s ≠ [] := by
        intro s hs
        rw [List.map_append, ← hi.bufs, List.mem_append] at hs
        rcases hs with hs | hs
        · exact hp s hs
        · simp only [List.map_cons, List.map_nil, List.mem_singleton] at hs
          rw [hs]; exact hev
      exact ⟨fun _ => ⟨hq, by simp⟩, hq, by simp⟩
    · exact ⟨h, hp, hn⟩
  | sockError =>
    unfold step
    split
    · exact ⟨h, hp, hn⟩
    simp only
    split
    · exact ⟨fun _ => ⟨hp, by simp⟩, hp, hn⟩
    · exact ⟨h, hp, hn⟩
  | teardown lv =>
    unfold step
    split
    · exact ⟨h, hp, hn⟩
    simp only
    split
    · exact ⟨h, hp, hn⟩
    · exact ⟨fun _ => ⟨hp, by simp⟩, hp, by simp⟩
  | shake v ans =>
    unfold step
    split
    · exact ⟨h, hp, hn⟩
    simp only
    split
    · rename_i hc
      have hhs : t.hs = false := by
        cases hh : t.hs with
        | false => rfl
        | true => exact absurd hc.1 (hi.shaken hh)
      have hcl : t.c.closed = false := by simpa using hc.2.1
      have hn' : t.c.sendq = [] ∨ t.c.notif = true := by
        by_cases hq : t.c.sendq = []
        · exact Or.inl hq
        · rcases hn hq with h | h | h
          · rw [hcl] at h; cases h
          · rw [hhs] at h; cases h
          · exact Or.inr h
      obtain ⟨b, hb⟩ : ∃ b, (if v then { t with c := { t.c with readySend := true } } else t) =
          { t with c := { t.c with readySend := b } } := by
        cases v with
        | true => exact ⟨true, rfl⟩
        | false => exact ⟨t.c.readySend, rfl⟩
      unfold shake
      rw [hb]
      simp only
      cases ans with
      | fatal => exact ⟨by simp [hhs], hp, hn⟩
      | wantRead => exact ⟨by simp [hhs], hp, hn⟩
      | wantWrite => exact ⟨by simp [hhs], hp, hn⟩
      | done cert =>
        cases cert with
        | true => exact ⟨fun _ => ⟨hp, by rcases hn' with h | h <;> simp [h]⟩, hp, by simp⟩
        | false => exact ⟨by simp [hhs], hp, hn⟩
    · exact ⟨h, hp, hn⟩
  | callback accept =>
    unfold step
    split
    · exact ⟨h, hp, hn⟩
    simp only
    split
    · split
      · exact ⟨h, hp, hn⟩
      · split
        · exact ⟨h, hp, hn⟩
        · exact ⟨fun hh => ⟨hp, by simp⟩, hp, hn⟩
    · exact ⟨h, hp, hn⟩

/-! What was written. -/

/-- The bytes an event hands over to be sent. -/
def Ev.bytes : Ev → List Byte
  | .write d true _ => d
  | _ => []

theorem written_step {cfg : Cfg} (ok : cfg.Ok) (q : Nat → Bool) (eq : Bool) {t : St cfg.ow} (hi : Inv cfg t)
    (ev : Ev) (hn : t.c.crashed = false) : (step cfg q eq t ev).1.c.written = t.c.written ++ ev.bytes := by
  cases ev with
  | readable as => rcases reads_readable ok q eq hi as with e | ⟨_, r⟩; rw [e]; simp [Ev.bytes]; rw [r.written]; simp [Ev.bytes]
  | poll as => rcases reads_poll ok q eq hi as with e | ⟨_, r⟩; rw [e]; simp [Ev.bytes]; rw [r.written]; simp [Ev.bytes]
  | notified ws => rcases sends_notified q eq hi ws with e | r; rw [e]; simp [Ev.bytes]; rw [r.written]; simp [Ev.bytes]
  | writable ws => rcases sends_writable q eq hi ws with e | r; rw [e]; simp [Ev.bytes]; rw [r.written]; simp [Ev.bytes]
  | arrive bs => unfold step; rw [if_neg (by simp [hn])]; simp only; split <;> simp [Ev.bytes]
  | peerClose => unfold step; rw [if_neg (by simp [hn])]; simp [Ev.bytes]
  | write d acc addr => unfold step; rw [if_neg (by simp [hn])]; cases acc <;> simp [Ev.bytes, St.setBufs]
  | sockError => unfold step; rw [if_neg (by simp [hn])]; simp only; split <;> simp [Ev.bytes]
  | teardown lv => unfold step; rw [if_neg (by simp [hn])]; simp only; split <;> simp [Ev.bytes]
  | shake v ans =>
    unfold step; rw [if_neg (by simp [hn])]; simp only
    split
    · unfold shake
      cases v <;> (cases ans with
        | done cert => cases cert <;> simp [Ev.bytes]
        | _ => simp [Ev.bytes])
    · simp [Ev.bytes]
  | callback accept =>
    unfold step; rw [if_neg (by simp [hn])]; simp only
    split
    · split
      · simp [Ev.bytes]
      · split <;> simp [Ev.bytes]
    · simp [Ev.bytes]

end Salticidae.Tls
