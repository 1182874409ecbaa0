import Verif.Lemmas.Tls
/-
The invariant of a TLS connection.
-/
namespace Salticidae.Tls
open ConnIO (Cfg Cb RecvEnd SendRes Core held frames rule MaskOk)

structure Inv (cfg : Cfg) (t : St cfg.ow) : Prop where
  plain : t.c.active = true → ConnIO.Inv cfg t.c
  core : Core cfg t.c
  closedOff : t.c.closed = true → t.c.poll = false ∧ t.c.readOn = false ∧ t.c.writeOn = false
  bytes : t.c.sent ++ t.c.sendq.flatten = t.c.written
  idle : t.c.active = false → t.c.readyRecv = false ∧ t.c.sleep = false ∧ t.c.poll = false ∧ t.c.over = false ∧
    t.c.brk = false ∧ t.c.inPayload = false ∧ t.c.buf.segs = [] ∧ t.c.delivered = [] ∧ t.pend = 0
  framed : Framed t
  bufs : t.c.sendq = t.bufs.map Buf.data
  enc : EncOk t.retry t.enc t.c.sent (headData t.bufs)
  addr : AddrOk t.c.killed t.retry t.bufs
  act : t.c.active = true ↔ t.phase = .opened
  opn : t.phase = .opened → t.due = 0 ∧ t.yes = true ∧ t.hs = true
  shaken : t.hs = true → t.phase ≠ .handshake
  cb : t.due + t.calls = if t.hs then 1 else 0
  shaking : t.phase = .handshake → t.c.sent = [] ∧ t.retry = none
  half : t.phase = .waiting → t.hs = true ∨ (t.c.killed = true ∧ t.c.sent = [] ∧ t.retry = none)
  pend : t.pend ≠ 0 → t.c.readyRecv = true ∨ t.c.killed = true

theorem inv_init (cfg : Cfg) (m : Msg cfg.ow) : Inv cfg (init m) := by
  have h := ConnIO.inv_init cfg m
  refine ⟨by simp [init, ConnIO.init], h.core.congr rfl, by simp [init, ConnIO.init], by simp [init, ConnIO.init],
    by simp [init, ConnIO.init, SegBuffer.empty], ⟨by simp [init, ConnIO.init], by simp [init]⟩,
    by simp [init, ConnIO.init], by simp [init, ConnIO.init, EncOk], ?_, by simp [init, ConnIO.init], by simp [init],
    by simp [init], by simp [init], by simp [init, ConnIO.init], by simp [init], by simp [init]⟩
  intro _ a l hh; simp [init] at hh

theorem inv_of_read {cfg : Cfg} {t u : St cfg.ow} (h : Inv cfg t) (ha : t.c.active = true)
    (hs : SameTls t u) (hf : Framed u) (hp : u.pend ≠ 0 → u.c.readyRecv = true ∨ u.c.killed = true)
    (hi : ConnIO.Inv cfg u.c) (h1 : u.c.active = t.c.active) (h2 : u.c.sendq = t.c.sendq)
    (h3 : u.c.sent = t.c.sent) (h4 : t.c.killed = true → u.c.killed = true) : Inv cfg u := by
  have ho := h.act.mp ha
  refine ⟨fun _ => hi, hi.core, hi.closedOff, hi.bytes, by rw [h1, ha]; simp, hf, by rw [h2, hs.bufs, h.bufs],
    by rw [hs.retry, hs.enc, hs.bufs, h3]; exact h.enc, ?_, by rw [h1, hs.phase]; exact h.act,
    by rw [hs.phase, hs.due, hs.yes, hs.hs]; exact h.opn, by rw [hs.phase, hs.hs]; exact h.shaken,
    by rw [hs.due, hs.calls, hs.hs]; exact h.cb, by rw [hs.phase, ho]; simp, by rw [hs.phase, ho]; simp, hp⟩
  intro hk
  rw [hs.retry, hs.bufs]
  apply h.addr
  cases hh : t.c.killed with
  | false => rfl
  | true => rw [h4 hh] at hk; cases hk

theorem inv_read {cfg : Cfg} {t : St cfg.ow} (h : Inv cfg t) (ha : t.c.active = true)
    (t0 : St cfg.ow) (h0 : SameTls t t0) (h1 : t0.c.active = t.c.active) (h2 : t0.c.sendq = t.c.sendq)
    (h3 : t0.c.sent = t.c.sent) (h4 : t0.c.killed = t.c.killed)
    {d : Cb (ConnIO.St cfg.ow)} {r : Cb (St cfg.ow)} (hr : ReadOk cfg t0 d r) (hd : ConnIO.ReadSpec cfg t0.c d)
    (eq : Bool) :
    (ConnIO.Inv cfg (ConnIO.caught d) → Inv cfg (caught (r, eq)).1) ∧
    (ConnIO.Inv cfg (ConnIO.uncaught d) → Inv cfg (uncaught (r, eq)).1) := by
  have hk := hd.keep
  have hkl := hd.killed
  obtain ⟨e1, e2, e3, e4⟩ := hr
  subst e1
  cases r with
  | ok u =>
    simp only [Cb.st, Cb.c] at hk hkl e2 e3 e4
    have k1 : u.c.active = t.c.active := by rw [hk, ← h1]
    have k2 : u.c.sendq = t.c.sendq := by rw [hk, ← h2]
    have k3 : u.c.sent = t.c.sent := by rw [hk, ← h3]
    refine ⟨fun hi => ?_, fun hi => ?_⟩
    · exact inv_of_read h ha (h0.trans e3) e2 e4 hi k1 k2 k3 (by rw [← h4]; exact hkl)
    · exact inv_of_read h ha (h0.trans e3) e2 e4 hi k1 k2 k3 (by rw [← h4]; exact hkl)
  | throw u =>
    simp only [Cb.st, Cb.c] at hk hkl e2 e3 e4
    have k1 : u.c.active = t.c.active := by rw [hk, ← h1]
    have k2 : u.c.sendq = t.c.sendq := by rw [hk, ← h2]
    have k3 : u.c.sent = t.c.sent := by rw [hk, ← h3]
    have e3' := h0.trans e3
    refine ⟨fun hi => ?_, fun hi => ?_⟩
    · exact inv_of_read h ha ⟨e3'.1, e3'.2, e3'.3, e3'.4, e3'.5, e3'.6, e3'.7, e3'.8⟩ ⟨e2.1, e2.2⟩ (by simp [caught]) hi k1 k2 k3
        (by simp [caught])
    · exact inv_of_read h ha ⟨e3'.1, e3'.2, e3'.3, e3'.4, e3'.5, e3'.6, e3'.7, e3'.8⟩ ⟨e2.1, e2.2⟩ e4 hi k1 k2 k3
        (by rw [← h4]; exact hkl)

theorem inv_send {cfg : Cfg} {t : St cfg.ow} (h : Inv cfg t) (hcl : t.c.closed = false) (hhs : t.hs = true)
    (t0 : St cfg.ow) (h0 : t0 = { t with c := { t.c with notif := t0.c.notif, readOn := t0.c.readOn, writeOn := t0.c.writeOn } })
    (hm : t.c.active = true → t.c.killed = true ∨ (t0.c.readOn = (!t.c.readyRecv) ∧ t0.c.writeOn = true))
    (ws : List (Nat × WriteAns)) (eq : Bool) : Inv cfg (sendLoop ws eq t0 t0.bufs).1 := by
  have e1 : t0.retry = t.retry := by rw [h0]
  have e2 : t0.enc = t.enc := by rw [h0]
  have e3 : t0.bufs = t.bufs := by rw [h0]
  have e4 : t0.c.sent = t.c.sent := by rw [h0]
  have e5 : t0.c.sendq = t.c.sendq := by rw [h0]
  have hs := sendLoop_ok ws eq t0 t0.bufs (by rw [e1, e2, e3, e4]; exact h.enc)
  obtain ⟨rs, hp⟩ := send_plain ws eq t0 t0.bufs
  rw [e3, ← h.bufs] at hp
  rw [e3] at hs ⊢
  generalize sendLoop ws eq t0 t.bufs = r at hs hp
  have hsp := ConnIO.sendLoop_spec rs t0.c t.c.sendq
  rw [← hp] at hsp
  have k := hsp.keep
  have g1 : t0.c.active = t.c.active := by rw [h0]
  have g2 : t0.phase = t.phase := by rw [h0]
  have g3 : t0.due = t.due := by rw [h0]
  have g8 : t0.calls = t.calls := by rw [h0]
  have g4 : t0.hs = t.hs := by rw [h0]
  have g5 : t0.yes = t.yes := by rw [h0]
  have g6 : t0.pend = t.pend := by rw [h0]
  have g7 : t0.recs = t.recs := by rw [h0]
  have kk : r.1.c = { t.c with
      notif := r.1.c.notif, sendq := r.1.c.sendq, readOn := r.1.c.readOn,
      writeOn := r.1.c.writeOn, readySend := r.1.c.readySend, killed := r.1.c.killed, sent := r.1.c.sent } := by
    rw [k, h0]
  have a1 : r.1.c.active = t.c.active := by rw [kk]
  have a2 : r.1.c.closed = t.c.closed := by rw [kk]
  have a3 : r.1.c.sock = t.c.sock := by rw [kk]
  have a4 : r.1.c.readyRecv = t.c.readyRecv := by rw [kk]
  have a5 : r.1.c.written = t.c.written := by rw [kk]
  have hkl : t.c.killed = true → r.1.c.killed = true := by
    intro hk
    have : t0.c.killed = t.c.killed := by rw [h0]
    rcases hsp.mask with h | h | h
    · rw [h.2.2.2, this, hk]
    · rw [h.2.2.2, this, hk]
    · exact h
  refine ⟨?_, h.core.congr (by rw [kk]), by rw [a2, hcl]; simp, ?_, ?_, ⟨?_, ?_⟩, hs.bufs, hs.enc, hs.addr,
    by rw [a1, hs.phase, g2]; exact h.act, by rw [hs.phase, hs.due, hs.yes, hs.hs, g2, g3, g5, g4]; exact h.opn,
    by rw [hs.hs, hs.phase, g2, g4]; exact h.shaken, by rw [hs.hs, hs.due, hs.calls, g3, g8, g4]; exact h.cb, ?_, ?_, ?_⟩
  · intro ha
    rw [a1] at ha
    exact ConnIO.inv_of_send (h.plain ha) t0.c (by rw [h.bufs] at hsp ⊢; exact hsp) ha hcl (by rw [h0]) (hm ha)
  · rw [hsp.bytes, a5, e4]; exact h.bytes
  · rw [a1]
    intro hn
    obtain ⟨i1, i2, i3, i4, i5, i6, i7, i8, i9⟩ := h.idle hn
    rw [hs.pend, g6, kk]
    exact ⟨i1, i2, i3, i4, i5, i6, i7, i8, i9⟩
  · rw [a3, hs.pend, hs.recs, g6, g7]; exact h.framed.len
  · rw [hs.recs, g7]; exact h.framed.pos
  · rw [hs.phase, g2]; intro hh; exact absurd hh (h.shaken hhs)
  · intro _; left; rw [hs.hs, g4]; exact hhs
  · rw [hs.pend, g6, a4]
    intro hp; exact (h.pend hp).imp id hkl

theorem core_arrive {cfg : Cfg} {c : ConnIO.St cfg.ow} (h : Core cfg c) (bs : List Byte) :
    Core cfg { c with sock := c.sock ++ bs, arrived := c.arrived ++ bs } := by
  refine ⟨h.wf, h.segs, h.chunk, h.pay, h.slp, h.acc, ?_, ?_⟩
  · intro ho
    obtain ⟨p, hh⟩ := h.hist ho
    refine ⟨p, hh.valid, ?_, hh.deliv, hh.brk⟩
    have := hh.bytes
    simp only [ConnIO.held_eq] at this ⊢
    simp [this, ConnIO.pending]
  · intro ho
    obtain ⟨p, hh⟩ := h.histOver ho
    obtain ⟨hb, more, h1, h2, h3⟩ := hh.bytes
    exact ⟨p, hh.valid, ⟨hb, more ++ bs, by simp [h1], h2, h3⟩, hh.deliv⟩

theorem headData_append {bufs : List Buf} {retry : Option (Nat × Nat)} {enc sent : List Byte}
    (h : EncOk retry enc sent (headData bufs)) (b : Buf) : EncOk retry enc sent (headData (bufs ++ [b])) := by
  cases bufs with
  | cons x xs => exact h
  | nil =>
    cases retry with
    | none => exact h
    | some al => simp [EncOk, headData] at h; omega

/-- Changes to flags only. -/
theorem inv_flags {cfg : Cfg} {t u : St cfg.ow} (h : Inv cfg t)
    (e : u = { t with c := { t.c with
      readOn := u.c.readOn, writeOn := u.c.writeOn, notif := u.c.notif, readySend := u.c.readySend,
      killed := u.c.killed, closed := u.c.closed, fin := u.c.fin, poll := u.c.poll } })
    (hp : t.c.active = true → ConnIO.Inv cfg u.c)
    (hc : u.c.closed = true → u.c.poll = false ∧ u.c.readOn = false ∧ u.c.writeOn = false)
    (hpoll : t.c.poll = false → u.c.poll = false)
    (hk : t.c.killed = true → u.c.killed = true) : Inv cfg u := by
  have a1 : u.c.active = t.c.active := by rw [e]
  have a2 : u.c.killed = false → t.c.killed = false := by
    intro hh
    cases h' : t.c.killed with
    | false => rfl
    | true => rw [hk h'] at hh; cases hh
  refine ⟨fun ha => hp (by rw [← a1]; exact ha), h.core.congr (by rw [e]), hc, by rw [e]; exact h.bytes, ?_,
    ⟨by rw [e]; exact h.framed.len, by rw [e]; exact h.framed.pos⟩, by rw [e]; exact h.bufs, by rw [e]; exact h.enc, ?_,
    by rw [e]; exact h.act, by rw [e]; exact h.opn, by rw [e]; exact h.shaken, by rw [e]; exact h.cb,
    by rw [e]; exact h.shaking, ?_, ?_⟩
  · rw [a1]
    intro ha
    obtain ⟨i1, i2, i3, i4, i5, i6, i7, i8, i9⟩ := h.idle ha
    have := hpoll i3
    exact ⟨by rw [e]; exact i1, by rw [e]; exact i2, this, by rw [e]; exact i4, by rw [e]; exact i5,
      by rw [e]; exact i6, by rw [e]; exact i7, by rw [e]; exact i8, by rw [e]; exact i9⟩
  · intro hh
    have := h.addr (a2 hh)
    rw [e]; exact this
  · intro hw
    have : t.phase = .waiting := by rw [e] at hw; exact hw
    rcases h.half this with h1 | ⟨h1, h2, h3⟩
    · left; rw [e]; exact h1
    · right; exact ⟨hk h1, by rw [e]; exact h2, by rw [e]; exact h3⟩
  · intro hp'
    have : t.pend ≠ 0 := by rw [e] at hp'; exact hp'
    rcases h.pend this with h1 | h1
    · left; rw [e]; exact h1
    · right; exact hk h1

theorem inv_shake {cfg : Cfg} {t : St cfg.ow} (h : Inv cfg t) (hp : t.phase = .handshake)
    (hcl : t.c.closed = false) (v : Bool) (ans : HsAns) : Inv cfg (shake v ans t).1 := by
  have ha : t.c.active = false := by
    cases hh : t.c.active with
    | false => rfl
    | true => rw [h.act.mp hh] at hp; cases hp
  have hna : ∀ {P : Prop}, t.c.active = true → P := by intro P hh; rw [ha] at hh; cases hh
  obtain ⟨s1, s2⟩ := h.shaking hp
  have hcb := h.cb
  have hgen : ∀ b : Bool, Inv cfg { t with c := { t.c with readySend := b } } := fun b =>
    inv_flags h rfl hna h.closedOff id id
  obtain ⟨b, hb⟩ : ∃ b, (if v then { t with c := { t.c with readySend := true } } else t) =
      { t with c := { t.c with readySend := b } } := by
    cases v with
    | true => exact ⟨true, rfl⟩
    | false => exact ⟨t.c.readySend, rfl⟩
  unfold shake
  rw [hb]
  have h' := hgen b
  simp only
  cases ans with
  | fatal => exact inv_flags h' rfl hna h.closedOff id (by simp)
  | wantRead => exact inv_flags h' rfl hna (by simp [hcl]) id id
  | wantWrite => exact inv_flags h' rfl hna (by simp [hcl]) id id
  | done cert =>
    have hhs : t.hs = false := by
      cases hh : t.hs with
      | false => rfl
      | true => exact absurd hp (h.shaken hh)
    cases cert with
    | true =>
      refine ⟨hna, h.core.congr rfl, by simp [hcl], h.bytes, h.idle, ⟨h.framed.len, h.framed.pos⟩, h.bufs, h.enc,
        h.addr, by simp [ha], by simp, by simp, by simp [hhs] at hcb ⊢; omega, by simp, by simp, h.pend⟩
    | false =>
      refine ⟨hna, h.core.congr rfl, by simp [hcl], h.bytes, h.idle, ⟨h.framed.len, h.framed.pos⟩, h.bufs, h.enc,
        by simp [AddrOk], by simp [ha], by simp, by simp, by simpa using hcb, by simp, by simp [s1, s2], by simp⟩

theorem inv_open {cfg : Cfg} {t : St cfg.ow} (h : Inv cfg t) (hcl : t.c.closed = false) (hhs : t.hs = true)
    (hca : 0 < t.due) : Inv cfg { t with
      due := t.due - 1, calls := t.calls + 1, yes := true, phase := .opened,
      c := { t.c with active := true, readOn := true, writeOn := true } } := by
  have hp : t.phase ≠ .opened := by intro hp; rw [(h.opn hp).1] at hca; cases hca
  have hcb := h.cb
  rw [hhs] at hcb
  simp only [if_true] at hcb
  have ha : t.c.active = false := by
    cases hh : t.c.active with
    | false => rfl
    | true => exact absurd (h.act.mp hh) hp
  obtain ⟨i1, i2, i3, i4, i5, i6, i7, i8, i9⟩ := h.idle ha
  refine ⟨fun _ => ?_, h.core.congr rfl, by simp [hcl], h.bytes, by simp, ⟨h.framed.len, h.framed.pos⟩, h.bufs,
    h.enc, h.addr, by simp, by simp [hhs]; omega, by simp, by simp [hhs]; omega, by simp, by simp, h.pend⟩
  refine ⟨h.core.congr rfl, by simp [i2, i3], by simp [hcl], by simp [i4], ?_, ?_, by simp, by simp [i1], h.bytes⟩
  · right; right; right; right; right
    rw [Spec.split_short]
    simp [ConnIO.held, ConnIO.pending, i6, i7]; omega
  · intro _; right; right
    simp [MaskOk, i1]

theorem inv_step {cfg : Cfg} (ok : cfg.Ok) (q : Nat → Bool) (eq : Bool) {t : St cfg.ow} (h : Inv cfg t)
    (ev : Ev) : Inv cfg (step cfg q eq t ev).1 := by
  unfold step
  split
  · exact h
  rename_i hcr
  have hcr : t.c.crashed = false := by simpa using hcr
  have pstep : ∀ ev, t.c.active = true → ConnIO.Inv cfg (ConnIO.step cfg q t.c ev) :=
    fun ev ha => ConnIO.inv_step ok q (h.plain ha) ev
  cases ev with
  | arrive bs =>
    simp only
    split
    · exact h
    · rename_i hn
      have hf : t.c.fin = false := by
        cases hh : t.c.fin with
        | false => rfl
        | true => exact absurd (Or.inl hh) hn
      have hb : bs ≠ [] := fun hb => hn (Or.inr hb)
      refine ⟨fun ha => ?_, core_arrive h.core bs, h.closedOff, h.bytes, h.idle, ⟨?_, ?_⟩, h.bufs, h.enc, h.addr,
        h.act, h.opn, h.shaken, h.cb, h.shaking, h.half, h.pend⟩
      · have := pstep (.arrive bs) ha
        simpa [ConnIO.step, hcr, hf] using this
      · have := h.framed.len
        simp only [List.length_append, this, List.sum_append, List.sum_singleton]; omega
      · intro r hr
        simp only [List.mem_append, List.mem_singleton] at hr
        rcases hr with hr | rfl
        · exact h.framed.pos r hr
        · exact List.length_pos_iff.mpr hb
  | peerClose =>
    refine inv_flags h rfl (fun ha => ?_) h.closedOff id id
    have := pstep .peerClose ha
    simpa [ConnIO.step, hcr] using this
  | shake v ans =>
    simp only
    split
    · rename_i hc
      exact inv_shake h hc.1 (by simpa using hc.2.1) v ans
    · exact h
  | callback accept =>
    simp only
    split
    · rename_i hc
      have hp : t.phase ≠ .opened := by intro hp; rw [(h.opn hp).1] at hc; cases hc
      have hcb := h.cb
      have hhs : t.hs = true := by
        cases hh : t.hs with
        | true => rfl
        | false => rw [hh] at hcb; simp at hcb; omega
      rw [hhs] at hcb
      simp only [if_true] at hcb
      have ha : t.c.active = false := by
        cases hh : t.c.active with
        | false => rfl
        | true => exact absurd (h.act.mp hh) hp
      have hna : ∀ {P : Prop}, t.c.active = true → P := by intro P hh; rw [ha] at hh; cases hh
      have hph := h.shaken hhs
      split
      · exact ⟨hna, h.core, h.closedOff, h.bytes, h.idle, ⟨h.framed.len, h.framed.pos⟩, h.bufs, h.enc, h.addr, h.act,
          fun hh => absurd hh hp, h.shaken, by simp [hhs]; omega, fun hh => absurd hh hph, h.half, h.pend⟩
      · rename_i hcl
        split
        · rename_i hacc
          subst hacc
          exact inv_open h (by simpa using hcl) hhs hc
        · exact ⟨hna, h.core.congr rfl, h.closedOff, h.bytes, h.idle, ⟨h.framed.len, h.framed.pos⟩, h.bufs, h.enc,
            by simp [AddrOk], h.act, fun hh => absurd hh hp, h.shaken, by simp [hhs]; omega, fun hh => absurd hh hph,
            fun _ => Or.inl hhs, by simp⟩
    · exact h
  | readable as =>
    simp only
    split
    · rename_i hc
      have hcl : t.c.closed = false := by simpa using hc.2.1
      have ha := h.act.mpr hc.2.2
      have hi := h.plain ha
      obtain ⟨ks, hr⟩ := recvData_ok ok q as eq h.framed h.core
      have hd := ConnIO.recvData_spec ok q ks hi.core (hi.pollSleep hcl) hc.1 (by
        rcases hi.mask ha with h | h | h
        · rw [hcl] at h; cases h
        · exact Or.inl h
        · exact Or.inr h.2)
      generalize recvData cfg q as eq t = r at hr
      have := (inv_read h ha t (.refl t) rfl rfl rfl rfl hr hd r.2).1
        (ConnIO.inv_caught hi.overKill hi.bytes hd ha hcl)
      exact this
    · exact h
  | poll as =>
    simp only
    split
    · rename_i hc
      have hcl : t.c.closed = false := by simpa using hc.2
      have ha : t.c.active = true := by
        cases hh : t.c.active with
        | true => rfl
        | false => have := (h.idle hh).2.2.1; rw [hc.1] at this; cases this
      have hi := h.plain ha
      have hsl : t.c.sleep = true := by rw [← hi.pollSleep hcl]; exact hc.1
      split
      · generalize ht0 : ({ t with c := { t.c with
            poll := false, sleep := false, tries := t.c.tries + 1, delivered := t.c.delivered ++ [t.c.msg] } } :
              St cfg.ow) = t0
        have hcore : Core cfg t0.c := by rw [← ht0]; exact ConnIO.core_poll hi.core hsl
        have hmask : t.c.killed = true ∨ MaskOk t.c := by
          rcases hi.mask ha with h | h | h
          · rw [hcl] at h; cases h
          · exact Or.inl h
          · exact Or.inr h
        obtain ⟨ks, hr⟩ := onRead_ok ok q as eq (t := t0)
          (by rw [← ht0]; exact ⟨h.framed.len, h.framed.pos⟩) hcore (by rw [← ht0]; exact h.pend)
        have hd := ConnIO.onRead_spec ok q ks hcore (by rw [← ht0]) (by rw [← ht0]; exact hmask)
        have hu := ConnIO.inv_uncaught (by rw [← ht0]; exact hi.overKill) (by rw [← ht0]; exact hi.bytes) hd
          (by rw [← ht0]; exact ha) (by rw [← ht0]; exact hcl)
        generalize onRead cfg q as eq t0 = r at hr
        exact (inv_read h ha t0 (by rw [← ht0]; exact ⟨rfl, rfl, rfl, rfl, rfl, rfl, rfl, rfl⟩) (by rw [← ht0])
          (by rw [← ht0]) (by rw [← ht0]) (by rw [← ht0]) hr hd r.2).2 hu
      · rename_i hq
        have hq : q t.c.tries = false := by simpa using hq
        have := pstep (.poll []) ha
        have he : ConnIO.step cfg q t.c (.poll []) =
            { t.c with tries := t.c.tries + 1, sleep := true, poll := true } := by
          simp only [ConnIO.step]
          rw [if_neg (by simp [hcr]), if_pos hc, if_neg (by simp [hq])]
        rw [he] at this
        exact ⟨fun _ => this, this.core, this.closedOff, h.bytes, by simp [ha], ⟨h.framed.len, h.framed.pos⟩, h.bufs,
          h.enc, h.addr, h.act, h.opn, h.shaken, h.cb, h.shaking, h.half, h.pend⟩
    · exact h
  | write d acc addr =>
    simp only
    split
    · rename_i hacc
      have hq : (t.bufs ++ [(⟨alloc addr (t.bufs.map Buf.addr), d⟩ : Buf)]).map Buf.data = t.c.sendq ++ [d] := by
        simp [h.bufs]
      simp only [St.setBufs, hq]
      refine ⟨fun ha => ?_, h.core.congr rfl, h.closedOff, by simp [← h.bytes], h.idle, ⟨h.framed.len, h.framed.pos⟩,
        by simp [h.bufs], headData_append h.enc _, ?_, h.act, h.opn, h.shaken, h.cb, h.shaking, h.half, h.pend⟩
      · have := pstep (.write d true) ha
        simpa [ConnIO.step, hcr] using this
      · intro hk a l hr
        obtain ⟨b, rest, h1, h2⟩ := h.addr hk a l hr
        exact ⟨b, rest ++ [⟨alloc addr (t.bufs.map Buf.addr), d⟩], by simp [h1], h2⟩
    · exact h
  | notified ws =>
    simp only
    split
    · rename_i hc
      have hcl : t.c.closed = false := by simpa using hc.2.1
      split
      · exact inv_send h hcl hc.2.2 _ rfl (fun _ => Or.inr ⟨rfl, rfl⟩) ws eq
      · rename_i hrs
        refine inv_flags h rfl (fun ha => ?_) h.closedOff id id
        have := pstep (.notified []) ha
        simpa [ConnIO.step, hcr, hc.1, hcl, hrs] using this
    · exact h
  | writable ws =>
    simp only
    split
    · rename_i hc
      have hcl : t.c.closed = false := by simpa using hc.2.1
      refine inv_send h hcl hc.2.2 t rfl (fun ha => ?_) ws eq
      rcases (h.plain ha).mask ha with h | h | h
      · rw [hcl] at h; cases h
      · exact Or.inl h
      · exact Or.inr ⟨h.1, hc.1⟩
    · exact h
  | sockError =>
    simp only
    split
    · refine inv_flags h rfl (fun ha => ?_) h.closedOff id (by simp)
      rename_i hc
      have hcl : t.c.closed = false := by simpa using hc.2
      have := pstep .sockError ha
      simpa [ConnIO.step, hcr, ha, hcl] using this
    · exact h
  | teardown lv =>
    simp only
    split
    · exact h
    · rename_i hc
      refine inv_flags h rfl (fun ha => ?_) (by simp) (by simp) id
      have := pstep .teardown ha
      simpa [ConnIO.step, hcr, hc] using this

end Salticidae.Tls
