import Verif.Model.Tls
import Verif.Lemmas.ConnIO2
/-
Lemmas about TLS connections: what the TLS socket functions do to the rest of the connection is what
the plain ones do with some kernel answers.
-/
namespace Salticidae.Tls
open ConnIO (Cfg Cb RecvEnd SendRes Core held frames rule)

/-! sending -/

theorem send_plain (ws : List (Nat × WriteAns)) (eq : Bool) (t : St ow) (bs : List Buf) :
    ∃ rs, (sendLoop ws eq t bs).1.c = ConnIO.sendLoop rs t.c (bs.map Buf.data) := by
  induction bs generalizing ws eq t with
  | nil => exact ⟨[], rfl⟩
  | cons b rest ih =>
    unfold sendLoop
    split
    · rename_i h
      refine ⟨[], ?_⟩
      simp only [List.map_cons, ConnIO.sendLoop, h, if_true, St.setBufs]
    · rename_i hne
      simp only
      generalize hr : sslWrite t.retry _ b.data _ = r
      obtain ⟨r1, r2, r3, r4⟩ := r
      cases r1 with
      | ok n =>
        simp only
        split
        · rename_i hn
          obtain ⟨rs, h⟩ := ih ws.tail (eq || r2)
            { t with retry := r3, enc := t.enc ++ r4, c := { t.c with sent := t.c.sent ++ b.data.take n } }
          refine ⟨.sent n :: rs, ?_⟩
          rw [h]
          simp only [List.map_cons, ConnIO.sendLoop, if_neg hne, if_pos hn]
          rw [List.take_of_length_le hn]
        · rename_i hn
          refine ⟨[.sent n], ?_⟩
          simp only [List.map_cons, ConnIO.sendLoop, if_neg hne, if_neg hn, St.setBufs]
          by_cases h0 : n = 0
          · rw [if_pos h0]; simp [h0]
          · rw [if_neg h0]
      | wantWrite =>
        simp only
        split
        · refine ⟨[.error], ?_⟩
          simp only [List.map_cons, ConnIO.sendLoop, if_neg hne, St.setBufs]
        · refine ⟨[], ?_⟩
          simp only [List.map_cons, ConnIO.sendLoop, if_neg hne, St.setBufs]
      | other =>
        refine ⟨[.error], ?_⟩
        simp only [List.map_cons, ConnIO.sendLoop, if_neg hne, St.setBufs]

/-! receiving -/

/-- The records make up the plaintext. -/
structure Framed (t : St ow) : Prop where
  len : t.c.sock.length = t.pend + t.recs.sum
  pos : ∀ r ∈ t.recs, 0 < r

theorem Framed.ready_le {t : St ow} (h : Framed t) : t.ready ≤ t.c.sock.length := by
  rw [h.len]
  unfold St.ready
  split
  · cases t.recs <;> simp <;> omega
  · omega

theorem Framed.ready_zero {t : St ow} (h : Framed t) (h0 : t.ready = 0) :
    t.pend = 0 ∧ t.recs = [] ∧ t.c.sock = [] := by
  unfold St.ready at h0
  split at h0
  · rename_i hp
    have hr : t.recs = [] := by
      cases he : t.recs with
      | nil => rfl
      | cons r rs =>
        rw [he] at h0
        have := h.pos r (by simp [he])
        simp at h0; omega
    refine ⟨hp, hr, ?_⟩
    have := h.len
    rw [hp, hr] at this
    exact List.eq_nil_of_length_eq_zero (by simpa using this)
  · contradiction

theorem Framed.hand {t : St ow} (h : Framed t) {n : Nat} (hn : n ≤ t.ready) : Framed (t.hand n) := by
  have hl := h.len
  refine ⟨?_, ?_⟩
  · simp only [St.hand, List.length_drop]
    rw [hl]
    unfold St.ready at hn ⊢
    split
    · rename_i hp
      rw [if_pos hp] at hn
      cases hr : t.recs with
      | nil => rw [hr] at hn; simp at hn; simp [hp, hn]
      | cons r rs => rw [hr] at hn; simp at hn; simp [hp]; omega
    · rename_i hp
      rw [if_neg hp] at hn; omega
  · intro r hr
    simp only [St.hand] at hr
    split at hr
    · exact h.pos r (List.mem_of_mem_tail hr)
    · exact h.pos r hr

/-- Fields of a TLS connection that receiving does not touch. -/
structure SameTls (t u : St ow) : Prop where
  phase : u.phase = t.phase
  bufs : u.bufs = t.bufs
  retry : u.retry = t.retry
  due : u.due = t.due
  calls : u.calls = t.calls
  enc : u.enc = t.enc
  hs : u.hs = t.hs
  yes : u.yes = t.yes

theorem SameTls.refl (t : St ow) : SameTls t t := ⟨rfl, rfl, rfl, rfl, rfl, rfl, rfl, rfl⟩

theorem SameTls.trans {t u v : St ow} (h : SameTls t u) (k : SameTls u v) : SameTls t v :=
  ⟨k.1.trans h.1, k.2.trans h.2, k.3.trans h.3, k.4.trans h.4, k.5.trans h.5, k.6.trans h.6, k.7.trans h.7, k.8.trans h.8⟩

/-- What the receive loop does. -/
structure RecvOk (cfg : Cfg) (t : St ow) (eq : Bool) (fuel : Nat) (r : St ow × Bool × RecvEnd) : Prop where
  plain : ∃ ks, (r.1.c, r.2.2) = ConnIO.recvLoop cfg fuel ks t.c
  framed : Framed r.1
  same : SameTls t r.1
  stop : r.2.2 = .stop → r.1.pend = 0

theorem recvLoop_ok {cfg : Cfg} (ok : cfg.Ok) (fuel : Nat) (as : List ReadAns) (eq : Bool) {t : St ow}
    (h : Framed t) : RecvOk cfg t eq fuel (recvLoop cfg fuel as eq t) := by
  have hch : cfg.chunk ≠ 0 := by have := ok.1; omega
  induction fuel generalizing as eq t with
  | zero => exact ⟨⟨[], rfl⟩, h, .refl _, by simp [recvLoop]⟩
  | succ fuel ih =>
    unfold recvLoop
    split
    · rename_i hf
      refine ⟨⟨[], ?_⟩, ⟨h.len, h.pos⟩, ⟨rfl, rfl, rfl, rfl, rfl, rfl, rfl, rfl⟩, by simp⟩
      simp only [ConnIO.recvLoop, if_pos hf]
    · rename_i hf
      split
      · refine ⟨⟨[0], ?_⟩, ⟨h.len, h.pos⟩, ⟨rfl, rfl, rfl, rfl, rfl, rfl, rfl, rfl⟩, by simp⟩
        simp [ConnIO.recvLoop, if_neg hf]
      · refine ⟨⟨[0], ?_⟩, ⟨h.len, h.pos⟩, ⟨rfl, rfl, rfl, rfl, rfl, rfl, rfl, rfl⟩, by simp⟩
        simp [ConnIO.recvLoop, if_neg hf]
      · split
        · rename_i h0
          obtain ⟨z1, z2, z3⟩ := h.ready_zero h0
          split
          · rename_i hfin
            refine ⟨⟨[], ?_⟩, ⟨h.len, h.pos⟩, ⟨rfl, rfl, rfl, rfl, rfl, rfl, rfl, rfl⟩, by simp⟩
            simp only [ConnIO.recvLoop, if_neg hf, List.headD_nil, if_neg hch, z3, if_true, hfin]
          · rename_i hfin
            split
            · refine ⟨⟨[0], ?_⟩, ⟨h.len, h.pos⟩, ⟨rfl, rfl, rfl, rfl, rfl, rfl, rfl, rfl⟩, by simp⟩
              simp [ConnIO.recvLoop, if_neg hf]
            · refine ⟨⟨[], ?_⟩, h, .refl _, fun _ => z1⟩
              simp only [ConnIO.recvLoop, if_neg hf, List.headD_nil, if_neg hch, z3, if_true, if_neg hfin]
        · rename_i h0
          have hle := h.ready_le
          generalize hn : min cfg.chunk t.ready = n
          have hs : t.c.sock ≠ [] := by
            intro hs; rw [hs] at hle; simp at hle; omega
          have hrl : ConnIO.recvLen cfg t.c.sock.length n = n := by
            simp only [ConnIO.recvLen]; omega
          have hn0 : n ≠ 0 := by omega
          have hfr := h.hand (n := n) (by omega)
          simp only
          split
          · rename_i hc
            obtain ⟨⟨ks, e1⟩, e2, e3, e4⟩ := ih as.tail eq hfr
            refine ⟨⟨n :: ks, ?_⟩, e2, SameTls.trans (u := t.hand n) ⟨rfl, rfl, rfl, rfl, rfl, rfl, rfl, rfl⟩ e3, e4⟩
            rw [e1]
            simp only [ConnIO.recvLoop, if_neg hf, List.headD_cons, if_neg hn0, if_neg hs, hrl, if_pos hc,
              List.tail_cons, St.hand]
          · rename_i hc
            refine ⟨⟨[n], ?_⟩, hfr, ⟨rfl, rfl, rfl, rfl, rfl, rfl, rfl, rfl⟩, fun _ => ?_⟩
            · simp only [ConnIO.recvLoop, if_neg hf, List.headD_cons, if_neg hn0, if_neg hs, hrl, if_neg hc,
                St.hand]
            · simp only [St.hand]; omega

/-- The rest of the connection of a result. -/
def Cb.c : Cb (St ow) → Cb (ConnIO.St ow)
  | .ok t => .ok t.c
  | .throw t => .throw t.c

/-- What a receiving callback does. -/
structure ReadOk (cfg : Cfg) (t : St cfg.ow) (d : Cb (ConnIO.St cfg.ow)) (r : Cb (St cfg.ow)) : Prop where
  plain : Cb.c r = d
  framed : Framed r.st
  same : SameTls t r.st
  pend : r.st.pend ≠ 0 → r.st.c.readyRecv = true ∨ r.st.c.killed = true

theorem recvData_ok {cfg : Cfg} (ok : cfg.Ok) (q : Nat → Bool) (as : List ReadAns) (eq : Bool)
    {t : St cfg.ow} (h : Framed t) (hc : Core cfg t.c) :
    ∃ ks, ReadOk cfg t (ConnIO.recvData cfg q ks t.c) (recvData cfg q as eq t).1 := by
  obtain ⟨⟨ks, e1⟩, e2, e3, e4⟩ := recvLoop_ok ok (cfg.maxSegs + 1) as eq h
  refine ⟨ks, ?_⟩
  have hsp := ConnIO.recvLoop_spec ok (cfg.maxSegs + 1) ks hc (by omega)
  unfold recvData ConnIO.recvData
  rw [← e1] at hsp ⊢
  rcases hr : recvLoop cfg (cfg.maxSegs + 1) as eq t with ⟨t', eq', o⟩
  rw [hr] at e2 e3 e4 hsp
  simp only at e2 e3 e4 hsp ⊢
  cases o with
  | full => exact ⟨rfl, e2, e3, fun _ => Or.inl (hsp.full rfl).2.2.1⟩
  | eof => exact ⟨rfl, e2, e3, fun _ => Or.inr (hsp.eof rfl).2.2.2⟩
  | stop =>
    have hk := (ConnIO.onReadLoop_spec (c := { t'.c with readyRecv := false }) ok q (hsp.core.congr rfl)).keep
    have e4 := e4 rfl
    simp only
    generalize (ConnIO.onReadLoop cfg q { t'.c with readyRecv := false }).1 = r at hk
    have hsock : r.st.sock = t'.c.sock := by rw [hk]
    cases r with
    | ok d =>
      refine ⟨rfl, ⟨?_, e2.pos⟩, ⟨e3.1, e3.2, e3.3, e3.4, e3.5, e3.6, e3.7, e3.8⟩, fun hp => absurd e4 hp⟩
      simp only [Cb.st] at hsock ⊢
      rw [hsock]; exact e2.len
    | throw d =>
      refine ⟨rfl, ⟨?_, e2.pos⟩, ⟨e3.1, e3.2, e3.3, e3.4, e3.5, e3.6, e3.7, e3.8⟩, fun hp => absurd e4 hp⟩
      simp only [Cb.st] at hsock ⊢
      rw [hsock]; exact e2.len

theorem onRead_ok {cfg : Cfg} (ok : cfg.Ok) (q : Nat → Bool) (as : List ReadAns) (eq : Bool)
    {t : St cfg.ow} (h : Framed t) (hc : Core cfg t.c)
    (hp : t.pend ≠ 0 → t.c.readyRecv = true ∨ t.c.killed = true) :
    ∃ ks, ReadOk cfg t (ConnIO.onRead cfg q ks t.c) (onRead cfg q as eq t).1 := by
  have hsp := ConnIO.onReadLoop_spec ok q hc
  have hk := hsp.keep
  have hcore := hsp.core
  unfold onRead ConnIO.onRead
  generalize ConnIO.onReadLoop cfg q t.c = r at hk hcore
  obtain ⟨r, b⟩ := r
  simp only at hk hcore
  have k1 : r.st.sock = t.c.sock := by rw [hk]
  have k2 : r.st.readyRecv = t.c.readyRecv := by rw [hk]
  have k3 : r.st.killed = t.c.killed := by rw [hk]
  cases r with
  | throw d =>
    simp only [Cb.st] at k1 k2 k3
    refine ⟨[], ?_⟩
    cases b
    all_goals
      refine ⟨rfl, ⟨?_, h.pos⟩, ⟨rfl, rfl, rfl, rfl, rfl, rfl, rfl, rfl⟩, ?_⟩
      · simp only [Cb.st]; rw [k1]; exact h.len
      · simp only [Cb.st, k2, k3]; exact hp
  | ok d =>
    simp only [Cb.st] at k1 k2 k3 hcore
    cases b with
    | true =>
      refine ⟨[], rfl, ⟨?_, h.pos⟩, ⟨rfl, rfl, rfl, rfl, rfl, rfl, rfl, rfl⟩, ?_⟩
      · simp only [Cb.st]; rw [k1]; exact h.len
      · simp only [Cb.st, k2, k3]; exact hp
    | false =>
      simp only
      split
      · obtain ⟨ks, hh⟩ := recvData_ok ok q as eq
          (t := { t with c := { d with readOn := true, writeOn := !d.readySend } })
          ⟨by simp only; rw [k1]; exact h.len, h.pos⟩ (hcore.congr rfl)
        exact ⟨ks, hh.plain, hh.framed, ⟨hh.same.1, hh.same.2, hh.same.3, hh.same.4, hh.same.5,
          hh.same.6, hh.same.7, hh.same.8⟩, hh.pend⟩
      · refine ⟨[], rfl, ⟨?_, h.pos⟩, ⟨rfl, rfl, rfl, rfl, rfl, rfl, rfl, rfl⟩, ?_⟩
        · simp only [Cb.st]; rw [k1]; exact h.len
        · simp only [Cb.st, k2, k3]; exact hp

/-! OpenSSL's write state -/

/-- The bytes put into records are those acknowledged, plus the record to be repeated, which is the
beginning of `data`. -/
def EncOk (retry : Option (Nat × Nat)) (enc sent data : List Byte) : Prop :=
  match retry with
  | none => enc = sent
  | some (_, l) => 1 ≤ l ∧ l ≤ data.length ∧ enc = sent ++ data.take l

/-- The data at the head of the queue. -/
def headData (bufs : List Buf) : List Byte := (bufs.head?.map Buf.data).getD []

/-- Unless the connection is being terminated, a write to be repeated is at the head of the queue, at
the address OpenSSL remembers. -/
def AddrOk (killed : Bool) (retry : Option (Nat × Nat)) (bufs : List Buf) : Prop :=
  killed = false → ∀ a l, retry = some (a, l) → ∃ b rest, bufs = b :: rest ∧ b.addr = a

theorem sslWrite_ok {retry : Option (Nat × Nat)} {enc sent data : List Byte} (hne : data ≠ [])
    (h : EncOk retry enc sent data) (addr : Nat) (w : WriteAns) :
    let r := sslWrite retry addr data w
    (∀ n, r.1 = .ok n → r.2.2.1 = none ∧ 1 ≤ n ∧ n ≤ data.length ∧ enc ++ r.2.2.2 = sent ++ data.take n) ∧
    (r.1 = .wantWrite → EncOk r.2.2.1 (enc ++ r.2.2.2) sent data ∧ ∀ a l, r.2.2.1 = some (a, l) → a = addr) ∧
    (r.1 = .other → EncOk r.2.2.1 (enc ++ r.2.2.2) sent data) := by
  have hpos : 0 < data.length := List.length_pos_iff.mpr hne
  intro r
  cases hr : retry with
  | none =>
    rw [hr] at h
    simp only [EncOk] at h
    subst h
    cases w with
    | taken n =>
      simp only [r, hr, sslWrite]
      refine ⟨?_, by simp, by simp⟩
      intro m hm
      cases hm
      exact ⟨trivial, by omega, by simp only [maxRecord]; omega, rfl⟩
    | wantWrite =>
      simp only [r, hr, sslWrite, EncOk]
      refine ⟨by simp, ?_, by simp⟩
      intro _
      refine ⟨⟨by simp only [maxRecord]; omega, by omega, trivial⟩, ?_⟩
      intro a l hh; cases hh; rfl
    | wantRead => simp [r, hr, sslWrite, EncOk]
    | fatal => simp [r, hr, sslWrite, EncOk]
  | some al =>
    obtain ⟨a0, l⟩ := al
    rw [hr] at h
    simp only [EncOk] at h
    obtain ⟨h1, h2, h3⟩ := h
    by_cases hc : a0 ≠ addr ∨ data.length < l
    · have : r = (.other, true, some (a0, l), []) := by simp only [r, hr, sslWrite, if_pos hc]
      rw [this]
      exact ⟨by simp, by simp, fun _ => ⟨h1, h2, by simp [h3]⟩⟩
    · have ha : a0 = addr := by
        by_cases ha : a0 = addr
        · exact ha
        · exact absurd (Or.inl ha) hc
      cases w with
      | taken n =>
        have : r = (.ok l, false, none, []) := by simp only [r, hr, sslWrite, if_neg hc]
        rw [this]
        refine ⟨?_, by simp, by simp⟩
        intro m hm; cases hm
        exact ⟨rfl, h1, h2, by simp [h3]⟩
      | wantWrite =>
        have : r = (.wantWrite, false, some (a0, l), []) := by simp only [r, hr, sslWrite, if_neg hc]
        rw [this]
        refine ⟨by simp, fun _ => ⟨⟨h1, h2, by simp [h3]⟩, ?_⟩, by simp⟩
        intro a l' hh; cases hh; exact ha
      | wantRead =>
        have : r = (.other, false, some (a0, l), []) := by simp only [r, hr, sslWrite, if_neg hc]
        rw [this]
        exact ⟨by simp, by simp, fun _ => ⟨h1, h2, by simp [h3]⟩⟩
      | fatal =>
        have : r = (.other, true, some (a0, l), []) := by simp only [r, hr, sslWrite, if_neg hc]
        rw [this]
        exact ⟨by simp, by simp, fun _ => ⟨h1, h2, by simp [h3]⟩⟩

theorem foldl_max_ge (l : List Nat) (m : Nat) : m ≤ l.foldl max m ∧ ∀ x ∈ l, x ≤ l.foldl max m := by
  induction l generalizing m with
  | nil => simp
  | cons a l ih =>
    simp only [List.foldl_cons, List.mem_cons]
    obtain ⟨h1, h2⟩ := ih (max m a)
    refine ⟨by omega, ?_⟩
    rintro x (rfl | hx)
    · omega
    · exact h2 x hx

theorem alloc_fresh (choice : Nat) (live : List Nat) : alloc choice live ∉ live := by
  unfold alloc
  split
  · intro h
    have := (foldl_max_ge live 0).2 _ h
    omega
  · assumption

/-- What sending does. -/
structure SendOk (t : St ow) (r : St ow × Bool) : Prop where
  phase : r.1.phase = t.phase
  pend : r.1.pend = t.pend
  recs : r.1.recs = t.recs
  due : r.1.due = t.due
  calls : r.1.calls = t.calls
  hs : r.1.hs = t.hs
  yes : r.1.yes = t.yes
  bufs : r.1.c.sendq = r.1.bufs.map Buf.data
  enc : EncOk r.1.retry r.1.enc r.1.c.sent (headData r.1.bufs)
  addr : AddrOk r.1.c.killed r.1.retry r.1.bufs

theorem sendLoop_ok (ws : List (Nat × WriteAns)) (eq : Bool) (t : St ow) (bs : List Buf)
    (h : EncOk t.retry t.enc t.c.sent (headData bs)) : SendOk t (sendLoop ws eq t bs) := by
  induction bs generalizing ws eq t with
  | nil =>
    have hr : t.retry = none := by
      cases hr : t.retry with
      | none => rfl
      | some al => rw [hr] at h; simp [EncOk, headData] at h; omega
    refine ⟨rfl, rfl, rfl, rfl, rfl, rfl, rfl, rfl, h, ?_⟩
    intro _ a l hh
    simp only [sendLoop, St.setBufs, hr] at hh
    cases hh
  | cons b rest ih =>
    unfold sendLoop
    split
    · rename_i he
      have hr : t.retry = none := by
        cases hr : t.retry with
        | none => rfl
        | some al => rw [hr] at h; simp [EncOk, headData, he] at h; omega
      refine ⟨rfl, rfl, rfl, rfl, rfl, rfl, rfl, rfl, ?_, ?_⟩
      · simp only [St.setBufs]; rw [hr] at h ⊢; exact h
      · intro _ a l hh
        simp only [St.setBufs, hr] at hh
        cases hh
    · rename_i hne
      simp only
      generalize hw : ws.headD (0, .taken maxRecord) = w
      generalize ha : alloc w.1 (b.addr :: rest.map Buf.addr) = a
      have hsl := sslWrite_ok hne h a w.2
      generalize sslWrite t.retry a b.data w.2 = r at hsl
      obtain ⟨r1, r2, r3, r4⟩ := r
      obtain ⟨s1, s2, s3⟩ := hsl
      simp only at s1 s2 s3
      cases r1 with
      | ok n =>
        obtain ⟨u1, u2, u3, u4⟩ := s1 n rfl
        subst u1
        simp only
        split
        · have := ih ws.tail (eq || r2)
            { t with retry := none, enc := t.enc ++ r4, c := { t.c with sent := t.c.sent ++ b.data.take n } } u4
          exact ⟨this.1, this.2, this.3, this.4, this.5, this.6, this.7, this.8, this.9, this.10⟩
        · exact ⟨rfl, rfl, rfl, rfl, rfl, rfl, rfl, rfl, u4, by intro _ a l hh; cases hh⟩
      | wantWrite =>
        obtain ⟨u1, u2⟩ := s2 rfl
        simp only
        split
        · exact ⟨rfl, rfl, rfl, rfl, rfl, rfl, rfl, rfl, u1, by intro hk; cases hk⟩
        · refine ⟨rfl, rfl, rfl, rfl, rfl, rfl, rfl, rfl, u1, ?_⟩
          intro _ a' l hh
          exact ⟨_, _, rfl, (u2 a' l hh).symm⟩
      | other =>
        exact ⟨rfl, rfl, rfl, rfl, rfl, rfl, rfl, rfl, s3 rfl, by intro hk; cases hk⟩

end Salticidae.Tls
