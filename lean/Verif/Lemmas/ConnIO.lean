import Verif.Lemmas.Frames
import Verif.Lemmas.Msg
import Verif.Lemmas.SegBuffer
import Verif.Model.ConnView
namespace Salticidae

namespace SegBuffer

theorem popLoop_bounds (n : Nat) (segs : List Seg) :
    (popLoop n segs).2.length ≤ segs.length ∧
    ∀ s ∈ (popLoop n segs).2, ∃ t ∈ segs, s.data = t.data := by
  induction segs generalizing n with
  | nil => cases n <;> simp [popLoop]
  | cons s segs ih =>
    cases n with
    | zero => simp only [popLoop]; exact ⟨Nat.le_refl _, fun x hx => ⟨x, hx, rfl⟩⟩
    | succ n =>
      simp only [popLoop]
      split
      · have := ih (n + 1 - min s.length (n + 1))
        simp only [List.length_cons]
        exact ⟨by omega, fun x hx => by obtain ⟨t, ht, h⟩ := this.2 x hx; exact ⟨t, by simp [ht], h⟩⟩
      · refine ⟨by simp, ?_⟩
        intro x hx
        simp only [List.mem_cons] at hx
        rcases hx with hx | hx
        · exact ⟨s, by simp, by simp [hx]⟩
        · exact ⟨x, by simp [hx], rfl⟩

theorem content_le {b : SegBuffer} {k : Nat} (h : ∀ s ∈ b.segs, s.data.length ≤ k) :
    b.content.length ≤ b.segs.length * k := by
  unfold content
  generalize b.segs = l at h
  induction l with
  | nil => simp
  | cons s l ih =>
    have h1 := h s (by simp)
    have h2 := ih (fun x hx => h x (by simp [hx]))
    simp only [List.flatMap_cons, List.length_append, List.length_drop, List.length_cons]
    rw [Nat.add_mul]; omega

theorem content_len (b : SegBuffer) : (b.segs.map Seg.length).sum = b.content.length := by
  unfold content
  induction b.segs with
  | nil => rfl
  | cons s l ih => simp [Seg.length, ih]

end SegBuffer

namespace ConnIO

theorem view_enc (e : Endian) (m : Msg ow) (h : m.length.toNat = m.payload.length) :
    (view e m).enc = Msg.headerBytes e m ++ m.payload := by
  simp [view, Spec.Frame.enc, Msg.headerBytes, h]

/-- The message passed all checks of the receiver. -/
def Accept (cfg : Cfg) (m : Msg cfg.ow) : Prop :=
  m.length.toNat = m.payload.length ∧ m.payload.length ≤ cfg.maxMsg ∧
    m.checksum = Msg.checksumOf cfg.e cfg.H m.payload ∧ m.noPayload = false

theorem view_valid {cfg : Cfg} {m : Msg cfg.ow} (h : m.length.toNat = m.payload.length)
    (h2 : m.payload.length ≤ cfg.maxMsg) : (view cfg.e m).Valid cfg.ow cfg.maxMsg := by
  refine ⟨by simp [view], ?_, ?_, ?_, h2⟩
  · exact m.magic.isLt
  · exact m.checksum.isLt
  · have := m.length.isLt; simp only [view]; omega

theorem pending_eq (cfg : Cfg) (c : St cfg.ow) :
    pending cfg c = if c.inPayload then Msg.headerBytes cfg.e c.msg else [] := by
  simp only [pending, Msg.serialize_eq]
  rw [List.take_left' (by simp)]

theorem held_eq (cfg : Cfg) (c : St cfg.ow) : held cfg c = pending cfg c ++ c.buf.content := rfl

abbrev goodF (cfg : Cfg) (f : Spec.Frame) : Bool := (rule cfg).good f.checksum f.payload

/-- What has been parsed, with regard to what has arrived. -/
structure Hist (cfg : Cfg) (c : St cfg.ow) (parsed : List Spec.Frame) : Prop where
  valid : ∀ f ∈ parsed, f.Valid cfg.ow cfg.maxMsg
  bytes : c.arrived = parsed.flatMap Spec.Frame.enc ++ (held cfg c ++ c.sock)
  deliv : parsed.filter (goodF cfg) = frames cfg c ++ (if c.sleep then [view cfg.e c.msg] else [])
  brk : c.brk = true → ∃ f ∈ parsed, goodF cfg f = false

/-- The same once an oversized header has been seen. -/
structure HistOver (cfg : Cfg) (c : St cfg.ow) (parsed : List Spec.Frame) : Prop where
  valid : ∀ f ∈ parsed, f.Valid cfg.ow cfg.maxMsg
  bytes : ∃ hb more, c.arrived = parsed.flatMap Spec.Frame.enc ++ (hb ++ more) ∧
    hb.length = 12 + cfg.ow ∧ Spec.frameLen cfg.ow hb > cfg.maxMsg
  deliv : parsed.filter (goodF cfg) <+: frames cfg c

/-- Part of the invariant about buffering and parsing. -/
structure Core (cfg : Cfg) (c : St cfg.ow) : Prop where
  wf : c.buf.Wf
  segs : c.buf.segs.length ≤ cfg.maxSegs
  chunk : ∀ s ∈ c.buf.segs, s.data.length ≤ cfg.chunk
  pay : c.inPayload = true → c.sleep = false ∧ c.msg.length.toNat ≤ cfg.maxMsg
  slp : c.sleep = true → Accept cfg c.msg
  acc : ∀ m ∈ c.delivered, Accept cfg m
  hist : c.over = false → ∃ parsed, Hist cfg c parsed
  histOver : c.over = true → ∃ parsed, HistOver cfg c parsed

theorem content_lt {cfg : Cfg} (ok : cfg.Ok) {c : St cfg.ow} (h : Core cfg c) :
    c.buf.content.length < 2 ^ 63 := by
  have h1 := SegBuffer.content_le h.chunk
  have h2 := Nat.mul_le_mul_right cfg.chunk h.segs
  have := ok.2
  omega

theorem size_eq {cfg : Cfg} (ok : cfg.Ok) {c : St cfg.ow} (h : Core cfg c) :
    c.buf.size = c.buf.content.length := by
  have := content_lt ok h
  rw [SegBuffer.size, h.wf.2, Nat.mod_eq_of_lt (by unfold sizeMod; omega)]

theorem pop_bounds {cfg : Cfg} {c : St cfg.ow} (h : Core cfg c) (n : Nat) :
    (c.buf.pop n).2.segs.length ≤ cfg.maxSegs ∧
    ∀ s ∈ (c.buf.pop n).2.segs, s.data.length ≤ cfg.chunk := by
  obtain ⟨h1, h2⟩ := SegBuffer.popLoop_bounds n c.buf.segs
  have e : (c.buf.pop n).2.segs = (SegBuffer.popLoop n c.buf.segs).2 := rfl
  rw [e]
  refine ⟨Nat.le_trans h1 h.segs, fun s hs => ?_⟩
  obtain ⟨t, ht, e⟩ := h2 s hs
  rw [e]; exact h.chunk t ht

/-- Measure for the loop. -/
def mu (c : St ow) : Nat := c.buf.content.length + (if c.inPayload then 1 else 0)

theorem frameLen_header (e : Endian) (m : Msg ow) (rest : List Byte) :
    Spec.frameLen ow (Msg.headerBytes e m ++ rest) = m.length.toNat := by
  simp only [Spec.frameLen, Msg.headerBytes, List.append_assoc]
  rw [← List.append_assoc, List.drop_left' (by simp), List.take_left' (by simp),
    Spec.leDec_leEnc4 m.length.isLt]

theorem split_header_short {cfg : Cfg} (m : Msg cfg.ow) (rest : List Byte)
    (h : rest.length < m.length.toNat) :
    (Spec.split cfg.ow cfg.maxMsg (Msg.headerBytes cfg.e m ++ rest)).1 = [] := by
  rw [Spec.split]
  simp only [frameLen_header, List.length_append, Msg.headerBytes_length, Msg.headerSize]
  split
  · rfl
  · split
    · rfl
    · rw [if_pos (by omega)]

/-- What parsing does. -/
structure IterSpec (cfg : Cfg) (c : St cfg.ow) (r : St cfg.ow × Option ParseEnd) : Prop where
  core : Core cfg r.1
  keep : r.1 = { c with
    buf := r.1.buf, msg := r.1.msg, inPayload := r.1.inPayload,
    sleep := r.1.sleep, poll := r.1.poll, tries := r.1.tries, delivered := r.1.delivered,
    over := r.1.over, brk := r.1.brk }
  awake : r.2 ≠ some .slept → r.1.sleep = false ∧ r.1.poll = c.poll
  asleep : r.2 = some .slept → r.1.sleep = true ∧ r.1.poll = true
  over : r.1.over = (c.over || decide (r.2 = some .oversized))
  done : r.2 = some .done → r.1.brk = true ∨ (Spec.split cfg.ow cfg.maxMsg (held cfg r.1)).1 = []

theorem parsePayload_spec {cfg : Cfg} (ok : cfg.Ok) (q : Nat → Bool) {c : St cfg.ow}
    (h : Core cfg c) (hp : c.inPayload = true) :
    IterSpec cfg c (parsePayload cfg q c) ∧
    ((parsePayload cfg q c).2 = none →
      (parsePayload cfg q c).1.inPayload = false ∧
      (parsePayload cfg q c).1.buf.content.length ≤ c.buf.content.length) := by
  have hs := (h.pay hp).1
  have hlm := (h.pay hp).2
  have hpend : pending cfg c = Msg.headerBytes cfg.e c.msg := by rw [pending_eq, if_pos hp]
  unfold parsePayload
  simp only
  split
  · rename_i hlt
    rw [size_eq ok h] at hlt
    refine ⟨⟨h, rfl, by simp [hs], by simp, by simp, ?_⟩, by simp⟩
    intro _
    right
    rw [held_eq, hpend]
    exact split_header_short _ _ hlt
  · rename_i hge
    rw [size_eq ok h] at hge
    obtain ⟨w1, w2, w3⟩ := SegBuffer.pop_spec h.wf c.msg.length.toNat
    obtain ⟨b1, b2⟩ := pop_bounds h c.msg.length.toNat
    have hlen : (c.buf.pop c.msg.length.toNat).1.length = c.msg.length.toNat := by
      rw [w2, List.length_take]; omega
    generalize hm : c.msg.setPayload (c.buf.pop c.msg.length.toNat).1 = m
    have ml : m.length = c.msg.length := by
      rw [← hm]; simp only [Msg.setPayload]; rw [hlen]; simp
    have mp : m.payload = c.buf.content.take c.msg.length.toNat := by
      rw [← hm]; simp only [Msg.setPayload]; rw [w2]
    have mh : Msg.headerBytes cfg.e m = Msg.headerBytes cfg.e c.msg := by
      simp only [Msg.headerBytes, ml]; rw [← hm]; simp [Msg.setPayload]
    have mn : m.noPayload = false := by rw [← hm]; rfl
    have mlen : m.length.toNat = m.payload.length := by rw [ml, mp, List.length_take]; omega
    have mle : m.payload.length ≤ cfg.maxMsg := by rw [← mlen, ml]; exact hlm
    have henc : (view cfg.e m).enc = Msg.headerBytes cfg.e c.msg ++ c.buf.content.take c.msg.length.toNat := by
      rw [view_enc _ _ mlen, mh, mp]
    have hval := view_valid mlen mle
    have hbytes : held cfg c = (view cfg.e m).enc ++ c.buf.content.drop c.msg.length.toNat := by
      rw [held_eq, hpend, henc, List.append_assoc, List.take_append_drop]
    have hdr : (c.buf.pop c.msg.length.toNat).2.content.length ≤ c.buf.content.length := by
      rw [w3, List.length_drop]; omega
    have hver : m.verifyChecksum cfg.e cfg.H
        = some (m.checksum == Msg.checksumOf cfg.e cfg.H m.payload) := by
      simp [Msg.verifyChecksum, Msg.getChecksum, mn]
    have hgood : goodF cfg (view cfg.e m) = (m.checksum == Msg.checksumOf cfg.e cfg.H m.payload) := by
      have : ((view cfg.e m).checksum == (Msg.checksumOf cfg.e cfg.H (view cfg.e m).payload).toNat)
          = (m.checksum == Msg.checksumOf cfg.e cfg.H m.payload) := by
        rw [Bool.eq_iff_iff, beq_iff_eq, beq_iff_eq]
        exact ⟨fun h => BitVec.eq_of_toNat_eq h, fun h => by simp only [view, ← h]⟩
      exact this
    rw [hver]
    split
    · rename_i hbad
      have hb : goodF cfg (view cfg.e m) = false := by
        rw [hgood]; simpa using hbad
      refine ⟨⟨⟨w1, b1, b2, by simp, ?_, h.acc, ?_, ?_⟩, rfl, by simp [hs], by simp, by simp, by simp⟩,
        by simp⟩
      · simp [hs]
      · intro ho
        obtain ⟨parsed, hh⟩ := h.hist ho
        refine ⟨parsed ++ [view cfg.e m], ?_, ?_, ?_, ?_⟩
        · intro f hf; simp only [List.mem_append, List.mem_singleton] at hf
          rcases hf with hf | rfl
          · exact hh.valid f hf
          · exact hval
        · have := hh.bytes
          rw [hbytes] at this
          simp only [held_eq, pending, w3]
          simp [this]
        · have := hh.deliv
          simp only [List.filter_append, this, frames, hs]
          simp [hb]
        · intro _; exact ⟨view cfg.e m, by simp, hb⟩
      · intro ho
        obtain ⟨parsed, hh⟩ := h.histOver ho
        exact ⟨parsed, hh.valid, hh.bytes, hh.deliv⟩
    · rename_i hok
      have hok' : m.checksum = Msg.checksumOf cfg.e cfg.H m.payload := by simpa using hok
      have hb : goodF cfg (view cfg.e m) = true := by rw [hgood]; simpa using hok'
      have hacc : Accept cfg m := ⟨mlen, mle, hok', mn⟩
      split
      · refine ⟨⟨⟨w1, b1, b2, by simp, by simp [hs], ?_, ?_, ?_⟩, rfl, by simp [hs], by simp, by simp,
          by simp⟩, fun _ => ⟨rfl, hdr⟩⟩
        · intro x hx
          simp only [List.mem_append, List.mem_singleton] at hx
          rcases hx with hx | rfl
          · exact h.acc x hx
          · exact hacc
        · intro ho
          obtain ⟨parsed, hh⟩ := h.hist ho
          refine ⟨parsed ++ [view cfg.e m], ?_, ?_, ?_, ?_⟩
          · intro f hf; simp only [List.mem_append, List.mem_singleton] at hf
            rcases hf with hf | rfl
            · exact hh.valid f hf
            · exact hval
          · have := hh.bytes
            rw [hbytes] at this
            simp only [held_eq, pending, w3]
            simp [this]
          · have := hh.deliv
            simp only [List.filter_append, this, frames, hs]
            simp [hb]
          · intro hbrk
            obtain ⟨f, hf, hg⟩ := hh.brk hbrk
            exact ⟨f, by simp [hf], hg⟩
        · intro ho
          obtain ⟨parsed, hh⟩ := h.histOver ho
          refine ⟨parsed, hh.valid, hh.bytes, ?_⟩
          simp only [frames, List.map_append]
          exact hh.deliv.trans (List.prefix_append _ _)
      · refine ⟨⟨⟨w1, b1, b2, by simp, fun _ => hacc, h.acc, ?_, ?_⟩, rfl, by simp, by simp, by simp,
          by simp⟩, by simp⟩
        · intro ho
          obtain ⟨parsed, hh⟩ := h.hist ho
          refine ⟨parsed ++ [view cfg.e m], ?_, ?_, ?_, ?_⟩
          · intro f hf; simp only [List.mem_append, List.mem_singleton] at hf
            rcases hf with hf | rfl
            · exact hh.valid f hf
            · exact hval
          · have := hh.bytes
            rw [hbytes] at this
            simp only [held_eq, pending, w3]
            simp [this]
          · have := hh.deliv
            simp only [List.filter_append, this, frames, hs]
            simp [hb]
          · intro hbrk
            obtain ⟨f, hf, hg⟩ := hh.brk hbrk
            exact ⟨f, by simp [hf], hg⟩
        · intro ho
          obtain ⟨parsed, hh⟩ := h.histOver ho
          exact ⟨parsed, hh.valid, hh.bytes, hh.deliv⟩

theorem parseIter_spec {cfg : Cfg} (ok : cfg.Ok) (q : Nat → Bool) {c : St cfg.ow}
    (h : Core cfg c) (hs : c.sleep = false) :
    IterSpec cfg c (parseIter cfg q c) ∧ ((parseIter cfg q c).2 = none → mu (parseIter cfg q c).1 < mu c) := by
  unfold parseIter
  split
  · rename_i hp
    obtain ⟨h1, h2⟩ := parsePayload_spec ok q h hp
    refine ⟨h1, fun hn => ?_⟩
    have := h2 hn
    simp only [mu, this.1, hp]
    simp; omega
  · rename_i hp
    have hp : c.inPayload = false := by simpa using hp
    have hpend : pending cfg c = [] := by simp [pending, hp]
    split
    · rename_i hlt
      rw [size_eq ok h] at hlt
      refine ⟨⟨h, rfl, by simp [hs], by simp, by simp, ?_⟩, by simp⟩
      intro _
      right
      simp only
      rw [held_eq, hpend, List.nil_append, Spec.split_short (by simp only [Msg.headerSize] at hlt; omega)]
    · rename_i hge
      rw [size_eq ok h] at hge
      obtain ⟨w1, w2, w3⟩ := SegBuffer.pop_spec h.wf (Msg.headerSize cfg.ow)
      obtain ⟨b1, b2⟩ := pop_bounds h (Msg.headerSize cfg.ow)
      have hlen : (c.buf.pop (Msg.headerSize cfg.ow)).1.length = Msg.headerSize cfg.ow := by
        rw [w2, List.length_take]; omega
      have hwf : (DataStream.ofBytes (c.buf.pop (Msg.headerSize cfg.ow)).1).Wf := by
        have := content_lt ok h
        simp only [DataStream.ofBytes, DataStream.Wf]
        rw [w2, List.length_take]; omega
      obtain ⟨m, hm, mh, mp, mn⟩ := Msg.ofHeader_total (ow := cfg.ow) hwf cfg.e hlen
        (rest := []) (by simp [DataStream.ofBytes, DataStream.unread])
      simp only [hm]
      have hsplit : c.buf.content
          = Msg.headerBytes cfg.e m ++ (c.buf.pop (Msg.headerSize cfg.ow)).2.content := by
        rw [mh, w2, w3, List.take_append_drop]
      split
      · rename_i hbig
        refine ⟨⟨⟨w1, b1, b2, by simp [hp], by simp [hs], h.acc, by simp, ?_⟩, rfl, by simp [hs], by simp,
          by simp, by simp⟩, by simp⟩
        intro _
        cases ho : c.over with
        | true =>
          obtain ⟨parsed, hh⟩ := h.histOver ho
          exact ⟨parsed, hh.valid, hh.bytes, hh.deliv⟩
        | false =>
          obtain ⟨parsed, hh⟩ := h.hist ho
          refine ⟨parsed, hh.valid, ⟨Msg.headerBytes cfg.e m,
            (c.buf.pop (Msg.headerSize cfg.ow)).2.content ++ c.sock, ?_, ?_, ?_⟩, ?_⟩
          · have := hh.bytes
            rw [held_eq, hpend, hsplit] at this
            simp [this]
          · simp [Msg.headerSize]; omega
          · have := frameLen_header cfg.e m []
            rw [List.append_nil] at this
            omega
          · have := hh.deliv
            rw [hs] at this
            simp only [frames] at this ⊢
            simp [this]
      · rename_i hsmall
        have hcore : Core cfg { c with
            buf := (c.buf.pop (Msg.headerSize cfg.ow)).2, msg := m, inPayload := true } := by
          refine ⟨w1, b1, b2, fun _ => ⟨hs, by simp only; omega⟩, by simp [hs], h.acc, ?_, ?_⟩
          · intro ho
            obtain ⟨parsed, hh⟩ := h.hist ho
            refine ⟨parsed, hh.valid, ?_, ?_, hh.brk⟩
            · have := hh.bytes
              rw [held_eq, hpend, hsplit] at this
              rw [held_eq, pending_eq]
              simpa using this
            · have := hh.deliv
              rw [hs] at this
              simpa [frames, hs] using this
          · intro ho
            obtain ⟨parsed, hh⟩ := h.histOver ho
            exact ⟨parsed, hh.valid, hh.bytes, hh.deliv⟩
        obtain ⟨h1, h2⟩ := parsePayload_spec ok q hcore rfl
        refine ⟨⟨h1.core, h1.keep, h1.awake, h1.asleep, h1.over, h1.done⟩, fun hn => ?_⟩
        have := h2 hn
        have hl : c.buf.content.length = Msg.headerSize cfg.ow +
            (c.buf.pop (Msg.headerSize cfg.ow)).2.content.length := by
          rw [hsplit]; simp
        simp only [mu, this.1, hp]
        simp only [Msg.headerSize] at *
        simp; omega

theorem IterSpec.trans {cfg : Cfg} {c d : St cfg.ow} {r : St cfg.ow × Option ParseEnd}
    (h1 : IterSpec cfg c (d, none)) (h2 : IterSpec cfg d r) : IterSpec cfg c r := by
  refine ⟨h2.core, ?_, ?_, h2.asleep, ?_, h2.done⟩
  · have a := h1.keep
    have b := h2.keep
    simp only at a
    rw [a] at b
    exact b
  · intro h
    have := h2.awake h
    have h' := h1.awake (by simp)
    exact ⟨this.1, this.2.trans h'.2⟩
  · have a := h1.over
    have b := h2.over
    simp at a
    rw [b, a]

theorem parseLoop_spec {cfg : Cfg} (ok : cfg.Ok) (q : Nat → Bool) (fuel : Nat) {c : St cfg.ow}
    (h : Core cfg c) (hs : c.sleep = false) (hf : mu c < fuel) :
    IterSpec cfg c (parseLoop cfg q fuel c) ∧ (parseLoop cfg q fuel c).2 ≠ none := by
  induction fuel generalizing c with
  | zero => omega
  | succ fuel ih =>
    obtain ⟨h1, h2⟩ := parseIter_spec ok q h hs
    unfold parseLoop
    rcases hr : parseIter cfg q c with ⟨c', o⟩
    rw [hr] at h1 h2
    cases o with
    | some x => exact ⟨h1, by simp⟩
    | none =>
      simp only
      have h3 := h2 rfl
      simp only at h3
      obtain ⟨h4, h5⟩ := ih h1.core (h1.awake (by simp)).1 (by simp only; omega)
      exact ⟨h1.trans h4, h5⟩

theorem bufBytes_eq (c : St ow) : bufBytes c = c.buf.content.length := SegBuffer.content_len _

theorem mu_lt (c : St ow) : mu c < bufBytes c + 2 := by
  rw [bufBytes_eq, mu]; split <;> omega

theorem Core.clearBrk {cfg : Cfg} {c : St cfg.ow} (h : Core cfg c) : Core cfg { c with brk := false } :=
  ⟨h.wf, h.segs, h.chunk, h.pay, h.slp, h.acc,
    fun ho => (h.hist ho).elim fun p hh => ⟨p, hh.valid, hh.bytes, hh.deliv, by simp⟩,
    fun ho => (h.histOver ho).elim fun p hh => ⟨p, hh.valid, hh.bytes, hh.deliv⟩⟩

/-- The state a callback leaves behind. -/
def Cb.st : Cb σ → σ
  | .ok s => s
  | .throw s => s

/-- It threw. -/
def Cb.threw : Cb σ → Bool
  | .ok _ => false
  | .throw _ => true

/-- What `on_read`'s loop does. -/
structure LoopSpec (cfg : Cfg) (c : St cfg.ow) (r : Cb (St cfg.ow) × Bool) : Prop where
  core : Core cfg r.1.st
  keep : r.1.st = { c with
    buf := r.1.st.buf, msg := r.1.st.msg, inPayload := r.1.st.inPayload,
    sleep := r.1.st.sleep, poll := r.1.st.poll, tries := r.1.st.tries, delivered := r.1.st.delivered,
    over := r.1.st.over, brk := r.1.st.brk }
  pollSleep : c.poll = c.sleep → r.1.st.poll = r.1.st.sleep
  over : r.1.st.over = (c.over || r.1.threw)
  parsed : r.1.threw = true ∨ r.1.st.sleep = true ∨ r.1.st.brk = true ∨
    (Spec.split cfg.ow cfg.maxMsg (held cfg r.1.st)).1 = []
  ret : r.2 = (r.1.threw || r.1.st.sleep)

theorem onReadLoop_spec {cfg : Cfg} (ok : cfg.Ok) (q : Nat → Bool) {c : St cfg.ow} (h : Core cfg c) :
    LoopSpec cfg c (onReadLoop cfg q c) := by
  unfold onReadLoop
  split
  · rename_i hs
    exact ⟨h, rfl, fun h => h, by simp [Cb.st, Cb.threw], by simp [Cb.st, hs], by simp [Cb.st, hs]⟩
  · rename_i hs
    have hs : c.sleep = false := by simpa using hs
    obtain ⟨h1, h2⟩ := parseLoop_spec (c := { c with brk := false }) ok q (bufBytes c + 2) h.clearBrk hs
      (mu_lt _)
    rcases hr : parseLoop cfg q (bufBytes c + 2) { c with brk := false } with ⟨c', o⟩
    rw [hr] at h1 h2
    have hk := h1.keep
    have ho := h1.over
    simp only at hk ho
    match o, h1, h2, ho with
    | none, h1, h2, ho => exact absurd rfl h2
    | some .slept, h1, h2, ho =>
      have ha := h1.asleep rfl
      simp only at ha
      exact ⟨h1.core, hk, by simp [Cb.st, ha], by simpa [Cb.st, Cb.threw] using ho, by simp [Cb.st, ha],
        by simp [Cb.st, ha]⟩
    | some .oversized, h1, h2, ho =>
      have ha := h1.awake (by simp)
      simp only at ha
      exact ⟨h1.core, hk, by simp [Cb.st, ha, hs], by simpa [Cb.st, Cb.threw] using ho,
        by simp [Cb.threw], by simp [Cb.threw]⟩
    | some .done, h1, h2, ho =>
      have ha := h1.awake (by simp)
      simp only at ha
      have hd := h1.done rfl
      refine ⟨h1.core, hk, by simp [Cb.st, ha, hs], by simpa [Cb.st, Cb.threw] using ho,
        ?_, by simp [Cb.st, Cb.threw, ha]⟩
      exact Or.inr (Or.inr hd)

/-- What the receive loop does. -/
structure RecvSpec (cfg : Cfg) (c : St cfg.ow) (r : St cfg.ow × RecvEnd) : Prop where
  core : Core cfg r.1
  keep : r.1 = { c with
    buf := r.1.buf, sock := r.1.sock, readOn := r.1.readOn, writeOn := r.1.writeOn,
    readyRecv := r.1.readyRecv, killed := r.1.killed }
  full : r.2 = .full → r.1.readOn = false ∧ r.1.writeOn = !c.readySend ∧ r.1.readyRecv = true ∧
    r.1.buf.len ≥ cfg.maxSegs ∧ r.1.killed = c.killed
  stop : r.2 = .stop → r.1.readOn = c.readOn ∧ r.1.writeOn = c.writeOn ∧ r.1.readyRecv = c.readyRecv ∧
    r.1.killed = c.killed
  eof : r.2 = .eof → r.1.readOn = c.readOn ∧ r.1.writeOn = c.writeOn ∧ r.1.readyRecv = c.readyRecv ∧
    r.1.killed = true

theorem recvLoop_spec {cfg : Cfg} (ok : cfg.Ok) (fuel : Nat) (ks : List Nat) {c : St cfg.ow}
    (h : Core cfg c) (hf : cfg.maxSegs < fuel + c.buf.segs.length) :
    RecvSpec cfg c (recvLoop cfg fuel ks c) := by
  induction fuel generalizing c ks with
  | zero => have := h.segs; omega
  | succ fuel ih =>
    unfold recvLoop
    split
    · rename_i hfull
      refine ⟨⟨h.wf, h.segs, h.chunk, h.pay, h.slp, h.acc, ?_, ?_⟩, rfl, ?_, by simp, by simp⟩
      · exact fun ho => (h.hist ho).elim fun p hh => ⟨p, hh.valid, hh.bytes, hh.deliv, hh.brk⟩
      · exact fun ho => (h.histOver ho).elim fun p hh => ⟨p, hh.valid, hh.bytes, hh.deliv⟩
      · intro _; exact ⟨rfl, rfl, rfl, hfull, rfl⟩
    · rename_i hnf
      split
      · refine ⟨⟨h.wf, h.segs, h.chunk, h.pay, h.slp, h.acc, ?_, ?_⟩, rfl, by simp, by simp, by simp⟩
        · exact fun ho => (h.hist ho).elim fun p hh => ⟨p, hh.valid, hh.bytes, hh.deliv, hh.brk⟩
        · exact fun ho => (h.histOver ho).elim fun p hh => ⟨p, hh.valid, hh.bytes, hh.deliv⟩
      split
      · split
        · refine ⟨⟨h.wf, h.segs, h.chunk, h.pay, h.slp, h.acc, ?_, ?_⟩, rfl, by simp, by simp, by simp⟩
          · exact fun ho => (h.hist ho).elim fun p hh => ⟨p, hh.valid, hh.bytes, hh.deliv, hh.brk⟩
          · exact fun ho => (h.histOver ho).elim fun p hh => ⟨p, hh.valid, hh.bytes, hh.deliv⟩
        · exact ⟨h, rfl, by simp, by simp, by simp⟩
      · rename_i hsock
        generalize hn : recvLen cfg c.sock.length (ks.headD cfg.chunk) = n
        obtain ⟨p1, p2⟩ := SegBuffer.push_spec h.wf (c.sock.take n)
        have hpos : 0 < c.sock.length := List.length_pos_iff.mpr hsock
        have hn1 : n ≤ cfg.chunk := by
          have := ok.1; rw [← hn]; simp only [recvLen]; omega
        have hcore : Core cfg { c with buf := c.buf.push (c.sock.take n), sock := c.sock.drop n } := by
          refine ⟨p1, ?_, ?_, h.pay, h.slp, h.acc, ?_, ?_⟩
          · simp only [SegBuffer.push, List.length_append, List.length_singleton]
            simp only [SegBuffer.len] at hnf
            omega
          · intro s hs
            simp only [SegBuffer.push, List.mem_append, List.mem_singleton] at hs
            rcases hs with hs | rfl
            · exact h.chunk s hs
            · simp only [List.length_take]; omega
          · intro ho
            obtain ⟨p, hh⟩ := h.hist ho
            refine ⟨p, hh.valid, ?_, hh.deliv, hh.brk⟩
            have := hh.bytes
            simp only [held_eq] at this ⊢
            rw [p2, this, List.append_assoc (pending cfg c)]
            simp [pending]
          · exact fun ho => (h.histOver ho).elim fun p hh => ⟨p, hh.valid, hh.bytes, hh.deliv⟩
        simp only
        split
        · have := ih ks.tail hcore (by
            simp only [SegBuffer.push, List.length_append, List.length_singleton]; omega)
          exact ⟨this.core, this.keep, this.full, this.stop, this.eof⟩
        · exact ⟨hcore, rfl, by simp, by simp, by simp⟩

theorem Core.congr {cfg : Cfg} {c d : St cfg.ow} (h : Core cfg c)
    (e : d = { c with
      poll := d.poll, readyRecv := d.readyRecv, readOn := d.readOn, fin := d.fin, sendq := d.sendq,
      readySend := d.readySend, writeOn := d.writeOn, notif := d.notif, active := d.active,
      killed := d.killed, closed := d.closed, crashed := d.crashed, tries := d.tries, sent := d.sent,
      written := d.written }) : Core cfg d := by
  rw [e]
  exact ⟨h.wf, h.segs, h.chunk, h.pay, h.slp, h.acc,
    fun ho => (h.hist ho).elim fun p hh => ⟨p, hh.valid, hh.bytes, hh.deliv, hh.brk⟩,
    fun ho => (h.histOver ho).elim fun p hh => ⟨p, hh.valid, hh.bytes, hh.deliv⟩⟩

/-- READ is in the mask exactly when the connection waits for it; WRITE is in the mask when the
connection waits for it. -/
def MaskOk (c : St ow) : Prop := c.readOn = !c.readyRecv ∧ (c.readySend = false → c.writeOn = true)

/-- What a read callback does. -/
structure ReadSpec (cfg : Cfg) (c : St cfg.ow) (r : Cb (St cfg.ow)) : Prop where
  core : Core cfg r.st
  keep : r.st = { c with
    buf := r.st.buf, msg := r.st.msg, inPayload := r.st.inPayload,
    sleep := r.st.sleep, poll := r.st.poll, tries := r.st.tries, delivered := r.st.delivered,
    over := r.st.over, brk := r.st.brk, sock := r.st.sock, readOn := r.st.readOn,
    writeOn := r.st.writeOn, readyRecv := r.st.readyRecv, killed := r.st.killed }
  pollSleep : r.st.poll = r.st.sleep
  over : r.st.over = (c.over || r.threw)
  killed : c.killed = true → r.st.killed = true
  parsed : r.threw = true ∨ r.st.sleep = true ∨ r.st.killed = true ∨ r.st.readyRecv = true ∨
    r.st.brk = true ∨ (Spec.split cfg.ow cfg.maxMsg (held cfg r.st)).1 = []
  mask : r.st.killed = true ∨ MaskOk r.st
  full : r.threw = true ∨ r.st.killed = true ∨
    (r.st.readyRecv = true → r.st.sleep = true ∨ r.st.buf.len ≥ cfg.maxSegs)

theorem recvData_spec {cfg : Cfg} (ok : cfg.Ok) (q : Nat → Bool) (ks : List Nat) {c : St cfg.ow}
    (h : Core cfg c) (hp : c.poll = c.sleep) (hr : c.readOn = true)
    (hw : c.killed = true ∨ (c.readySend = false → c.writeOn = true)) : ReadSpec cfg c (recvData cfg q ks c) := by
  have h1 := recvLoop_spec ok (cfg.maxSegs + 1) ks h (by omega)
  unfold recvData
  rcases hl : recvLoop cfg (cfg.maxSegs + 1) ks c with ⟨c', e⟩
  rw [hl] at h1
  have hk := h1.keep
  simp only at hk
  have ks1 : c'.poll = c.poll := by rw [hk]
  have ks2 : c'.sleep = c.sleep := by rw [hk]
  have ks3 : c'.readySend = c.readySend := by rw [hk]
  have ks4 : c'.over = c.over := by rw [hk]
  match e, h1 with
  | .full, h1 =>
    obtain ⟨f1, f2, f3, f4, f5⟩ := h1.full rfl
    simp only at f1 f2 f3 f4 f5
    refine ⟨h1.core, ?_, by simp [Cb.st, ks1, ks2, hp], by simp [Cb.st, Cb.threw, ks4],
      by simp [Cb.st, f5], by simp [Cb.st, f3], ?_, ?_⟩
    · simp only [Cb.st]; rw [hk]
    · right; simp [MaskOk, Cb.st, f1, f2, f3, ks3]
    · right; right; intro _; exact Or.inr f4
  | .eof, h1 =>
    obtain ⟨f1, f2, f3, f4⟩ := h1.eof rfl
    simp only at f1 f2 f3 f4
    refine ⟨h1.core, ?_, by simp [Cb.st, ks1, ks2, hp], by simp [Cb.st, Cb.threw, ks4],
      by simp [Cb.st, f4], by simp [Cb.st, f4], by simp [Cb.st, f4], by simp [Cb.st, f4]⟩
    simp only [Cb.st]; rw [hk]
  | .stop, h1 =>
    obtain ⟨f1, f2, f3, f4⟩ := h1.stop rfl
    simp only at f1 f2 f3 f4
    have h2 := onReadLoop_spec (c := { c' with readyRecv := false }) ok q (h1.core.congr rfl)
    simp only
    generalize onReadLoop cfg q { c' with readyRecv := false } = r at h2 ⊢
    have k2 := h2.keep
    have l1 : r.1.st.readOn = c'.readOn := by rw [k2]
    have l2 : r.1.st.writeOn = c'.writeOn := by rw [k2]
    have l3 : r.1.st.readyRecv = false := by rw [k2]
    have l4 : r.1.st.killed = c'.killed := by rw [k2]
    have l5 : r.1.st.readySend = c'.readySend := by rw [k2]
    refine ⟨h2.core, ?_, h2.pollSleep (by simp [ks1, ks2, hp]), by rw [h2.over]; simp [ks4],
      by rw [l4, f4]; simp, ?_, ?_, ?_⟩
    · rw [k2]; simp only; rw [hk]
    · rcases h2.parsed with h | h | h | h
      · exact Or.inl h
      · exact Or.inr (Or.inl h)
      · exact Or.inr (Or.inr (Or.inr (Or.inr (Or.inl h))))
      · exact Or.inr (Or.inr (Or.inr (Or.inr (Or.inr h))))
    · rw [l4, f4]
      rcases hw with hw | hw
      · exact Or.inl hw
      · right; exact ⟨by simp [l1, l3, f1, hr], by rw [l2, l5, f2, ks3]; exact hw⟩
    · simp [l3]

theorem onRead_spec {cfg : Cfg} (ok : cfg.Ok) (q : Nat → Bool) (ks : List Nat) {c : St cfg.ow}
    (h : Core cfg c) (hp : c.poll = c.sleep) (hm : c.killed = true ∨ MaskOk c) :
    ReadSpec cfg c (onRead cfg q ks c) := by
  have h1 := onReadLoop_spec ok q h
  unfold onRead
  rcases hl : onReadLoop cfg q c with ⟨r, b⟩
  rw [hl] at h1
  have hk := h1.keep
  simp only at hk
  have l0 : r.st.readOn = c.readOn := by rw [hk]
  have l1 : r.st.writeOn = c.writeOn := by rw [hk]
  have l2 : r.st.readyRecv = c.readyRecv := by rw [hk]
  have l3 : r.st.readySend = c.readySend := by rw [hk]
  have l4 : r.st.killed = c.killed := by rw [hk]
  have hret := h1.ret
  have hps := h1.pollSleep hp
  have hmask : r.st.killed = true ∨ MaskOk r.st := by
    simpa only [MaskOk, l0, l1, l2, l3, l4] using hm
  have hpar := h1.parsed
  simp only at hret hps hpar
  have hpar' : r.threw = true ∨ r.st.sleep = true ∨ r.st.killed = true ∨ r.st.readyRecv = true ∨
    r.st.brk = true ∨ (Spec.split cfg.ow cfg.maxMsg (held cfg r.st)).1 = [] := by
    rcases hpar with h | h | h | h
    · exact Or.inl h
    · exact Or.inr (Or.inl h)
    · exact Or.inr (Or.inr (Or.inr (Or.inr (Or.inl h))))
    · exact Or.inr (Or.inr (Or.inr (Or.inr (Or.inr h))))
  have hkeep : r.st = { c with
    buf := r.st.buf, msg := r.st.msg, inPayload := r.st.inPayload,
    sleep := r.st.sleep, poll := r.st.poll, tries := r.st.tries, delivered := r.st.delivered,
    over := r.st.over, brk := r.st.brk, sock := r.st.sock, readOn := r.st.readOn,
    writeOn := r.st.writeOn, readyRecv := r.st.readyRecv, killed := r.st.killed } := by
    rw [hk]
  match b, r, h1 with
  | true, r, h1 =>
    refine ⟨h1.core, hkeep, hps, h1.over, by simp [l4], hpar', hmask, ?_⟩
    have : r.threw = true ∨ r.st.sleep = true := by simpa using hret.symm
    rcases this with h | h
    · exact Or.inl h
    · exact Or.inr (Or.inr fun _ => Or.inl h)
  | false, .throw s, h1 => simp [Cb.threw] at hret
  | false, .ok s, h1 =>
    simp only [Cb.st, Cb.threw] at hret hps hmask hpar' hkeep l0 l1 l2 l3 l4
    simp only
    split
    · rename_i hc
      have h2 := recvData_spec (c := { s with readOn := true, writeOn := !s.readySend }) ok q ks
        (h1.core.congr rfl) hps rfl (Or.inr (by simp +contextual))
      generalize recvData cfg q ks { s with readOn := true, writeOn := !s.readySend } = r at h2 ⊢
      have k2 := h2.keep
      have ho := h1.over
      simp only [Cb.st, Cb.threw, Bool.or_false] at ho
      refine ⟨h2.core, ?_, h2.pollSleep, by rw [h2.over]; simp [ho], ?_, h2.parsed, h2.mask, h2.full⟩
      · rw [k2]; simp only; rw [hkeep]
      · intro hh; exact h2.killed (by simp [l4, hh])
    · rename_i hc
      refine ⟨h1.core, hkeep, hps, h1.over, by simp [Cb.st, l4], hpar', hmask, ?_⟩
      right; right
      intro hr
      right
      simp only [Cb.st] at hr ⊢
      exact Nat.le_of_not_lt fun hh => hc ⟨hr, hh⟩

/-- What a write callback does. -/
structure SendSpec (c : St ow) (segs : List (List Byte)) (r : St ow) : Prop where
  keep : r = { c with
    sendq := r.sendq, readOn := r.readOn, writeOn := r.writeOn, readySend := r.readySend,
    killed := r.killed, sent := r.sent }
  bytes : r.sent ++ r.sendq.flatten = c.sent ++ segs.flatten
  mask : (r.readySend = true ∧ r.writeOn = false ∧ r.readOn = (!c.readyRecv) ∧ r.killed = c.killed) ∨
    (r.readySend = false ∧ r.writeOn = c.writeOn ∧ r.readOn = c.readOn ∧ r.killed = c.killed) ∨
    r.killed = true
  flush : (∀ s ∈ segs, s ≠ []) → (∀ s ∈ r.sendq, s ≠ []) ∧
    (r.killed = true ∨ r.readySend = false ∨ r.sendq = [])

theorem sendLoop_spec (rs : List SendRes) (c : St ow) (segs : List (List Byte)) :
    SendSpec c segs (sendLoop rs c segs) := by
  induction segs generalizing rs c with
  | nil => simp only [sendLoop]; exact ⟨rfl, by simp, by simp, by simp⟩
  | cons seg segs ih =>
    unfold sendLoop
    split
    · rename_i he
      refine ⟨rfl, by simp [he], by simp, ?_⟩
      intro h; exact absurd he (h seg (by simp))
    · split
      · exact ⟨rfl, by simp, by simp, fun h => ⟨h, by simp⟩⟩
      · exact ⟨rfl, by simp, by simp, fun h => ⟨h, by simp⟩⟩
      · exact ⟨rfl, by simp, by simp, fun h => ⟨h, by simp⟩⟩
      · rename_i n rs'
        split
        · have h := ih rs' { c with sent := c.sent ++ seg }
          refine ⟨h.keep, ?_, h.mask, fun hh => h.flush fun s hs => hh s (by simp [hs])⟩
          rw [h.bytes]; simp
        · split
          · exact ⟨rfl, by simp, by simp, fun h => ⟨h, by simp⟩⟩
          · rename_i hne hnz
            refine ⟨rfl, ?_, by simp, fun h => ⟨?_, by simp⟩⟩
            · simp only [List.flatten_cons, List.append_assoc]
              rw [← List.append_assoc (seg.take n), List.take_append_drop]
            · intro s hs
              simp only [List.mem_cons] at hs
              rcases hs with rfl | hs
              · intro he
                have := congrArg List.length he
                simp at this; omega
              · exact h s (by simp [hs])

/-- The invariant of a connection. -/
structure Inv (cfg : Cfg) (c : St cfg.ow) : Prop where
  core : Core cfg c
  pollSleep : c.closed = false → c.poll = c.sleep
  closedOff : c.closed = true → c.poll = false ∧ c.readOn = false ∧ c.writeOn = false
  overKill : c.over = true → c.killed = true ∨ c.crashed = true
  parsed : c.over = true ∨ c.sleep = true ∨ c.killed = true ∨ c.readyRecv = true ∨
    c.brk = true ∨ (Spec.split cfg.ow cfg.maxMsg (held cfg c)).1 = []
  mask : c.active = true → c.closed = true ∨ c.killed = true ∨ MaskOk c
  inactive : c.active = false → c.readOn = false ∧ c.writeOn = false ∧ c.readyRecv = false ∧
    c.readySend = false ∧ c.sleep = false ∧ c.killed = false
  full : c.readyRecv = true → c.crashed = true ∨ c.closed = true ∨ c.killed = true ∨ c.sleep = true ∨
    c.buf.len ≥ cfg.maxSegs
  bytes : c.sent ++ c.sendq.flatten = c.written

theorem inv_init (cfg : Cfg) (m : Msg cfg.ow) : Inv cfg (init m) := by
  refine ⟨⟨SegBuffer.wf_empty, by simp [init, SegBuffer.empty], by simp [init, SegBuffer.empty],
    by simp [init], by simp [init], by simp [init], ?_, by simp [init]⟩, by simp [init], by simp [init],
    by simp [init], ?_, by simp [init], by simp [init], by simp [init], by simp [init]⟩
  · intro _
    refine ⟨[], by simp, ?_, ?_, by simp [init]⟩
    · simp [init, held, pending, SegBuffer.empty]
    · simp [init, frames]
  · right; right; right; right; right
    rw [Spec.split_short]
    simp [held, pending, init, SegBuffer.empty]; omega

theorem inv_of_read {cfg : Cfg} {c : St cfg.ow}
    (hover : c.over = true → c.killed = true ∨ c.crashed = true)
    (hbytes : c.sent ++ c.sendq.flatten = c.written) {r : Cb (St cfg.ow)}
    (hr : ReadSpec cfg c r) (hact : c.active = true) (hcl : c.closed = false) (d : St cfg.ow)
    (hd : d = { r.st with killed := d.killed, crashed := d.crashed })
    (hk : d.killed = true ∨ d.killed = r.st.killed) (hc : d.crashed = true ∨ d.crashed = c.crashed)
    (ht : r.threw = true → d.killed = true ∨ d.crashed = true) : Inv cfg d := by
  have k := hr.keep
  have e1 : d.active = c.active := by rw [hd, k]
  have e2 : d.closed = c.closed := by rw [hd, k]
  have e3 : d.sent = c.sent := by rw [hd, k]
  have e4 : d.sendq = c.sendq := by rw [hd, k]
  have e5 : d.written = c.written := by rw [hd, k]
  have f1 : d.poll = r.st.poll := by rw [hd]
  have f2 : d.sleep = r.st.sleep := by rw [hd]
  have f3 : d.over = r.st.over := by rw [hd]
  have f4 : d.readyRecv = r.st.readyRecv := by rw [hd]
  have f5 : d.brk = r.st.brk := by rw [hd]
  have f6 : held cfg d = held cfg r.st := by rw [hd]; rfl
  have f7 : d.readOn = r.st.readOn := by rw [hd]
  have f8 : d.writeOn = r.st.writeOn := by rw [hd]
  have f9 : d.readySend = r.st.readySend := by rw [hd]
  have f10 : d.buf = r.st.buf := by rw [hd]
  have hkk : r.st.killed = true → d.killed = true := by
    intro h; rcases hk with hk | hk
    · exact hk
    · rw [hk, h]
  refine ⟨hr.core.congr (by rw [hd]), ?_, ?_, ?_, ?_, ?_, ?_, ?_, ?_⟩
  · intro _; rw [f1, f2, hr.pollSleep]
  · rw [e2, hcl]; simp
  · rw [f3, hr.over]
    intro ho
    simp only [Bool.or_eq_true] at ho
    rcases ho with ho | ho
    · rcases hover ho with h | h
      · exact Or.inl (hkk (hr.killed h))
      · right; rcases hc with hc | hc
        · exact hc
        · rw [hc, h]
    · exact ht ho
  · rw [f3, f2, f4, f5, f6]
    rcases hr.parsed with h | h | h | h | h | h
    · left; rw [hr.over]; simp [h]
    · exact Or.inr (Or.inl h)
    · exact Or.inr (Or.inr (Or.inl (hkk h)))
    · exact Or.inr (Or.inr (Or.inr (Or.inl h)))
    · exact Or.inr (Or.inr (Or.inr (Or.inr (Or.inl h))))
    · exact Or.inr (Or.inr (Or.inr (Or.inr (Or.inr h))))
  · intro _
    right
    rcases hr.mask with h | h
    · exact Or.inl (hkk h)
    · right; simpa only [MaskOk, f4, f7, f8, f9] using h
  · rw [e1, hact]; simp
  · rw [f4, f2, f10]
    intro h
    rcases hr.full with h1 | h1 | h1
    · rcases ht h1 with h1 | h1
      · exact Or.inr (Or.inr (Or.inl h1))
      · exact Or.inl h1
    · exact Or.inr (Or.inr (Or.inl (hkk h1)))
    · exact Or.inr (Or.inr (Or.inr (h1 h)))
  · rw [e3, e4, e5]; exact hbytes

theorem inv_caught {cfg : Cfg} {c : St cfg.ow}
    (hover : c.over = true → c.killed = true ∨ c.crashed = true)
    (hbytes : c.sent ++ c.sendq.flatten = c.written) {r : Cb (St cfg.ow)}
    (hr : ReadSpec cfg c r) (ha : c.active = true) (hcl : c.closed = false) : Inv cfg (caught r) := by
  have k := hr.keep
  cases r with
  | ok s =>
    simp only [Cb.st] at k
    exact inv_of_read hover hbytes hr ha hcl s rfl (Or.inr rfl) (Or.inr (by rw [k])) (by simp [Cb.threw])
  | throw s =>
    simp only [Cb.st] at k
    exact inv_of_read hover hbytes hr ha hcl { s with killed := true } rfl (Or.inl rfl)
      (Or.inr (by simp only; rw [k])) (by simp)

theorem inv_uncaught {cfg : Cfg} {c : St cfg.ow}
    (hover : c.over = true → c.killed = true ∨ c.crashed = true)
    (hbytes : c.sent ++ c.sendq.flatten = c.written) {r : Cb (St cfg.ow)}
    (hr : ReadSpec cfg c r) (ha : c.active = true) (hcl : c.closed = false) : Inv cfg (uncaught r) := by
  have k := hr.keep
  cases r with
  | ok s =>
    simp only [Cb.st] at k
    exact inv_of_read hover hbytes hr ha hcl s rfl (Or.inr rfl) (Or.inr (by rw [k])) (by simp [Cb.threw])
  | throw s =>
    simp only [Cb.st] at k
    exact inv_of_read hover hbytes hr ha hcl { s with crashed := true } rfl (Or.inr rfl)
      (Or.inl rfl) (by simp)

theorem inv_of_send {cfg : Cfg} {c : St cfg.ow} (h : Inv cfg c) (c0 : St cfg.ow) {r : St cfg.ow}
    (hr : SendSpec c0 c.sendq r) (hact : c.active = true) (hcl : c.closed = false)
    (h0 : c0 = { c with notif := c0.notif, readOn := c0.readOn, writeOn := c0.writeOn })
    (hm : c.killed = true ∨ (c0.readOn = (!c.readyRecv) ∧ c0.writeOn = true)) : Inv cfg r := by
  have k := hr.keep
  rw [h0] at k
  simp only at k
  have hk0 : c0.killed = c.killed := by rw [h0]
  have hk1 : c0.readyRecv = c.readyRecv := by rw [h0]
  have hk2 : c0.sent = c.sent := by rw [h0]
  have e1 : r.active = c.active := by rw [k]
  have e2 : r.closed = c.closed := by rw [k]
  have f1 : r.poll = c.poll := by rw [k]
  have f2 : r.sleep = c.sleep := by rw [k]
  have f3 : r.over = c.over := by rw [k]
  have f4 : r.readyRecv = c.readyRecv := by rw [k]
  have f5 : r.brk = c.brk := by rw [k]
  have f6 : held cfg r = held cfg c := by rw [k]; rfl
  have f7 : r.crashed = c.crashed := by rw [k]
  have f8 : r.buf = c.buf := by rw [k]
  have f9 : r.written = c.written := by rw [k]
  have hkk : c.killed = true → r.killed = true := by
    intro hc
    rcases hr.mask with ⟨_, _, _, h⟩ | ⟨_, _, _, h⟩ | h
    · rw [h, hk0, hc]
    · rw [h, hk0, hc]
    · exact h
  have hcore : Core cfg r := by
    refine h.core.congr ?_
    rw [k]
  refine ⟨hcore, ?_, ?_, ?_, ?_, ?_, ?_, ?_, ?_⟩
  · rw [e2, f1, f2]; exact h.pollSleep
  · rw [e2, hcl]; simp
  · rw [f3, f7]
    intro ho
    exact (h.overKill ho).imp hkk id
  · rw [f3, f2, f4, f5, f6]
    exact h.parsed.imp id (Or.imp id (Or.imp hkk id))
  · intro _
    right
    rcases hr.mask with ⟨h1, h2, h3, h4⟩ | ⟨h1, h2, h3, h4⟩ | h
    · right; exact ⟨by rw [h3, f4, hk1], by simp [h1]⟩
    · rcases hm with hm | ⟨hm1, hm2⟩
      · exact Or.inl (hkk hm)
      · right; exact ⟨by rw [h3, f4, hm1], fun _ => by rw [h2, hm2]⟩
    · exact Or.inl h
  · rw [e1, hact]; simp
  · rw [f4, f7, e2, f2, f8]
    intro hf
    exact (h.full hf).imp id (Or.imp id (Or.imp hkk id))
  · rw [hr.bytes, f9, hk2]; exact h.bytes

theorem core_poll {cfg : Cfg} {c : St cfg.ow} (h : Core cfg c) (hsl : c.sleep = true) :
    Core cfg { c with
      poll := false, sleep := false, tries := c.tries + 1, delivered := c.delivered ++ [c.msg] } := by
  have hnp : c.inPayload = false := by
    cases hh : c.inPayload with
    | false => rfl
    | true => have := (h.pay hh).1; rw [hsl] at this; cases this
  refine ⟨h.wf, h.segs, h.chunk, ?_, by simp, ?_, ?_, ?_⟩
  · intro hh; simp only at hh; rw [hnp] at hh; cases hh
  · intro m hm
    simp only [List.mem_append, List.mem_singleton] at hm
    rcases hm with hm | rfl
    · exact h.acc m hm
    · exact h.slp hsl
  · intro ho
    obtain ⟨p, hh⟩ := h.hist ho
    refine ⟨p, hh.valid, hh.bytes, ?_, hh.brk⟩
    have := hh.deliv
    rw [hsl] at this
    simpa [frames] using this
  · intro ho
    obtain ⟨p, hh⟩ := h.histOver ho
    refine ⟨p, hh.valid, hh.bytes, ?_⟩
    simp only [frames, List.map_append]
    exact hh.deliv.trans (List.prefix_append _ _)

theorem inv_step {cfg : Cfg} (ok : cfg.Ok) (q : Nat → Bool) {c : St cfg.ow} (h : Inv cfg c) (ev : Ev) :
    Inv cfg (step cfg q c ev) := by
  unfold step
  split
  · exact h
  rename_i hcr
  have hcr : c.crashed = false := by simpa using hcr
  cases ev with
  | arrive bs =>
    simp only
    split
    · exact h
    · refine ⟨⟨h.core.wf, h.core.segs, h.core.chunk, h.core.pay, h.core.slp, h.core.acc, ?_, ?_⟩,
        h.pollSleep, h.closedOff, h.overKill, h.parsed, h.mask, h.inactive, h.full, h.bytes⟩
      · intro ho
        obtain ⟨p, hh⟩ := h.core.hist ho
        refine ⟨p, hh.valid, ?_, hh.deliv, hh.brk⟩
        have := hh.bytes
        simp only [held_eq] at this ⊢
        simp [this, pending]
      · intro ho
        obtain ⟨p, hh⟩ := h.core.histOver ho
        obtain ⟨hb, more, h1, h2, h3⟩ := hh.bytes
        exact ⟨p, hh.valid, ⟨hb, more ++ bs, by simp [h1], h2, h3⟩, hh.deliv⟩
  | peerClose =>
    exact ⟨h.core.congr rfl, h.pollSleep, h.closedOff, h.overKill, h.parsed, h.mask, h.inactive, h.full,
      h.bytes⟩
  | activate =>
    simp only
    split
    · exact h
    · rename_i hc
      have ha : c.active = false := by
        cases hh : c.active with
        | false => rfl
        | true => exact absurd (Or.inr hh) hc
      obtain ⟨i1, i2, i3, i4, i5, i6⟩ := h.inactive ha
      refine ⟨h.core.congr rfl, h.pollSleep, ?_, h.overKill, h.parsed, ?_, by simp, h.full, h.bytes⟩
      · intro hcl; exact absurd (Or.inl hcl) hc
      · intro _; right; right; simp [MaskOk, i3, i4]
  | readable ks =>
    simp only
    split
    · rename_i hc
      have hcl : c.closed = false := by simpa using hc.2
      have ha : c.active = true := by
        cases hh : c.active with
        | true => rfl
        | false => have := (h.inactive hh).1; rw [hc.1] at this; cases this
      have hr := recvData_spec ok q ks h.core (h.pollSleep hcl) hc.1 (by
        rcases h.mask ha with h | h | h
        · rw [hcl] at h; cases h
        · exact Or.inl h
        · exact Or.inr h.2)
      generalize recvData cfg q ks c = r at hr
      exact inv_caught h.overKill h.bytes hr ha hcl
    · exact h
  | poll ks =>
    simp only
    split
    · rename_i hc
      have hcl : c.closed = false := by simpa using hc.2
      have hsl : c.sleep = true := by rw [← h.pollSleep hcl]; exact hc.1
      have ha : c.active = true := by
        cases hh : c.active with
        | true => rfl
        | false => have := (h.inactive hh).2.2.2.2.1; rw [hsl] at this; cases this
      split
      · have hcore := core_poll h.core hsl
        have hmask : c.killed = true ∨ MaskOk c := by
          rcases h.mask ha with h | h | h
          · rw [hcl] at h; cases h
          · exact Or.inl h
          · exact Or.inr h
        have hr := onRead_spec ok q ks hcore rfl hmask
        generalize onRead cfg q ks _ = r at hr
        refine inv_uncaught ?_ ?_ hr ?_ ?_
        · exact h.overKill
        · exact h.bytes
        · exact ha
        · exact hcl
      · refine ⟨h.core.congr ?_, ?_, ?_, h.overKill, ?_, h.mask, ?_, ?_, h.bytes⟩
        · simp [hsl]
        · simp
        · simp [hcl]
        · simp
        · simp [ha]
        · simp
    · exact h
  | write d acc =>
    simp only
    split
    · refine ⟨h.core.congr rfl, h.pollSleep, h.closedOff, h.overKill, h.parsed, h.mask, h.inactive, h.full,
        ?_⟩
      simp [← h.bytes]
    · exact h
  | notified rs =>
    simp only
    split
    · rename_i hc
      have hcl : c.closed = false := by simpa using hc.2
      split
      · rename_i hrs
        have ha : c.active = true := by
          cases hh : c.active with
          | true => rfl
          | false => have := (h.inactive hh).2.2.2.1; rw [hrs] at this; cases this
        exact inv_of_send h _ (sendLoop_spec rs _ _) ha hcl rfl (Or.inr ⟨rfl, rfl⟩)
      · exact ⟨h.core.congr rfl, h.pollSleep, h.closedOff, h.overKill, h.parsed, h.mask, h.inactive,
          h.full, h.bytes⟩
    · exact h
  | writable rs =>
    simp only
    split
    · rename_i hc
      have hcl : c.closed = false := by simpa using hc.2
      have ha : c.active = true := by
        cases hh : c.active with
        | true => rfl
        | false => have := (h.inactive hh).2.1; rw [hc.1] at this; cases this
      refine inv_of_send h c (sendLoop_spec rs _ _) ha hcl rfl ?_
      rcases h.mask ha with h | h | h
      · rw [hcl] at h; cases h
      · exact Or.inl h
      · exact Or.inr ⟨h.1, hc.1⟩
    · exact h
  | sockError =>
    simp only
    split
    · rename_i hc
      exact ⟨h.core.congr rfl, h.pollSleep, h.closedOff, by simp, by simp, by simp, by simp [hc.1], by simp,
        h.bytes⟩
    · exact h
  | teardown =>
    simp only
    split
    · exact h
    · refine ⟨h.core.congr rfl, by simp, by simp, h.overKill, h.parsed, by simp, ?_, by simp, h.bytes⟩
      intro ha
      obtain ⟨i1, i2, i3, i4, i5, i6⟩ := h.inactive ha
      exact ⟨rfl, rfl, i3, i4, i5, i6⟩

theorem inv_run {cfg : Cfg} (ok : cfg.Ok) (q : Nat → Bool) (evs : List Ev) {c : St cfg.ow}
    (h : Inv cfg c) : Inv cfg (run cfg q c evs) := by
  induction evs generalizing c with
  | nil => exact h
  | cons ev evs ih => exact ih (inv_step ok q h ev)

end ConnIO
end Salticidae
