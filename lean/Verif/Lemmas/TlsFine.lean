import Verif.Lemmas.TlsRun
/-
Connections on which nothing goes wrong and no write has to be repeated.
-/
namespace Salticidae.Tls
open ConnIO (Cfg Cb RecvEnd SendRes Core held frames rule MaskOk)

/-- The event brings no failure: no alert or reset, no refusal, no renegotiation, no end of stream. -/
def Ev.Healthy : Ev → Prop
  | .shake _ ans => ans ≠ .fatal ∧ ans ≠ .done false
  | .callback accept => accept = true
  | .readable as => ∀ a ∈ as, a = .normal
  | .poll as => ∀ a ∈ as, a = .normal
  | .notified ws => ∀ w ∈ ws, w.2 ≠ .fatal ∧ w.2 ≠ .wantRead
  | .writable ws => ∀ w ∈ ws, w.2 ≠ .fatal ∧ w.2 ≠ .wantRead
  | .peerClose => False
  | .sockError => False
  | .teardown _ => False
  | _ => True

/-- The kernel's send buffer never is full. -/
def Ev.Flowing : Ev → Prop
  | .notified ws => ∀ w ∈ ws, w.2 ≠ .wantWrite
  | .writable ws => ∀ w ∈ ws, w.2 ≠ .wantWrite
  | _ => True

structure Fine (t : St ow) : Prop where
  retry : t.retry = none
  fin : t.c.fin = false
  killed : t.c.killed = true → t.c.over = true

theorem recvLoop_fine {cfg : Cfg} (fuel : Nat) (as : List ReadAns) {t : St ow} (hf : t.c.fin = false)
    (ha : ∀ a ∈ as, a = .normal) :
    let r := recvLoop cfg fuel as false t
    r.2.1 = false ∧ r.1.c.fin = false ∧ r.1.c.killed = t.c.killed ∧ r.1.c.over = t.c.over := by
  induction fuel generalizing as t with
  | zero => exact ⟨rfl, hf, rfl, rfl⟩
  | succ fuel ih =>
    unfold recvLoop
    split
    · exact ⟨rfl, hf, rfl, rfl⟩
    · have hd : as.headD .normal = .normal := by
        cases as with
        | nil => rfl
        | cons a as => exact ha a (by simp)
      rw [hd]
      simp only
      split
      · rw [if_neg (by simp [hf])]
        exact ⟨rfl, hf, rfl, rfl⟩
      · split
        · exact ih as.tail (t := t.hand _) hf (fun a h => ha a (List.mem_of_mem_tail h))
        · exact ⟨rfl, hf, rfl, rfl⟩

/-- The result of a receiving callback. -/
structure FineCb (r : Cb (St ow) × Bool) : Prop where
  eq : r.2 = false
  retry : r.1.st.retry = none
  fin : r.1.st.c.fin = false
  killed : r.1.st.c.killed = true → r.1.st.c.over = true
  threw : r.1.threw = true → r.1.st.c.over = true

theorem FineCb.caught {r : Cb (St ow) × Bool} (h : FineCb r) : (caught r).2 = false ∧ Fine (caught r).1 := by
  obtain ⟨r, eq⟩ := r
  cases r with
  | ok t => exact ⟨h.eq, h.retry, h.fin, h.killed⟩
  | throw t => exact ⟨h.eq, h.retry, h.fin, fun _ => h.threw rfl⟩

theorem FineCb.uncaught {r : Cb (St ow) × Bool} (h : FineCb r) : (uncaught r).2 = false ∧ Fine (uncaught r).1 := by
  obtain ⟨r, eq⟩ := r
  cases r with
  | ok t => exact ⟨h.eq, h.retry, h.fin, h.killed⟩
  | throw t => exact ⟨h.eq, h.retry, h.fin, h.killed⟩

theorem recvData_fine {cfg : Cfg} (ok : cfg.Ok) (q : Nat → Bool) (as : List ReadAns) {t : St cfg.ow}
    (h : Framed t) (hc : Core cfg t.c) (hf : Fine t) (ha : ∀ a ∈ as, a = .normal) :
    FineCb (recvData cfg q as false t) := by
  obtain ⟨⟨ks, e1⟩, e2, e3, e4⟩ := recvLoop_ok ok (cfg.maxSegs + 1) as false h
  obtain ⟨f1, f2, f3, f4⟩ := recvLoop_fine (cfg := cfg) (cfg.maxSegs + 1) as hf.fin ha
  have hsp := ConnIO.recvLoop_spec ok (cfg.maxSegs + 1) ks hc (by omega)
  rw [← e1] at hsp
  have hcore := hsp.core
  have hre := e3.retry
  clear hsp e1 e2 e3 e4
  unfold recvData
  generalize recvLoop cfg (cfg.maxSegs + 1) as false t = r at *
  obtain ⟨t', eq', o⟩ := r
  simp only at f1 f2 f3 f4 hcore hre
  have hk : t'.c.killed = true → t'.c.over = true := by rw [f3, f4]; exact hf.killed
  have hr : t'.retry = none := by rw [hre, hf.retry]
  cases o with
  | full => exact ⟨f1, hr, f2, hk, by simp [Cb.threw]⟩
  | eof => exact ⟨f1, hr, f2, hk, by simp [Cb.threw]⟩
  | stop =>
    have hl := ConnIO.onReadLoop_spec (c := { t'.c with readyRecv := false }) ok q (hcore.congr rfl)
    have hkp := hl.keep
    have hov := hl.over
    simp only
    generalize ConnIO.onReadLoop cfg q { t'.c with readyRecv := false } = r at *
    obtain ⟨r, b⟩ := r
    cases r with
    | ok d =>
      simp only [Cb.st, Cb.threw, Bool.or_false] at hkp hov
      refine ⟨f1, hr, ?_, ?_, by simp [Cb.threw]⟩
      · simp only [Cb.st]; rw [hkp]; exact f2
      · simp only [Cb.st]; rw [hov]
        have : d.killed = t'.c.killed := by rw [hkp]
        rw [this]; exact hk
    | throw d =>
      simp only [Cb.st, Cb.threw, Bool.or_true] at hkp hov
      refine ⟨f1, hr, ?_, fun _ => hov, fun _ => hov⟩
      simp only [Cb.st]; rw [hkp]; exact f2

theorem onRead_fine {cfg : Cfg} (ok : cfg.Ok) (q : Nat → Bool) (as : List ReadAns) {t : St cfg.ow}
    (h : Framed t) (hc : Core cfg t.c) (hf : Fine t) (ha : ∀ a ∈ as, a = .normal) :
    FineCb (onRead cfg q as false t) := by
  have hl := ConnIO.onReadLoop_spec ok q hc
  have hkp := hl.keep
  have hov := hl.over
  have hco := hl.core
  have hret := hl.ret
  unfold onRead
  generalize ConnIO.onReadLoop cfg q t.c = r at *
  obtain ⟨r, b⟩ := r
  cases r with
  | throw d =>
    simp only [Cb.st, Cb.threw, Bool.or_true] at hkp hov
    refine ⟨rfl, hf.retry, ?_, fun _ => hov, fun _ => hov⟩
    simp only [Cb.st]; rw [hkp]; exact hf.fin
  | ok d =>
    simp only [Cb.st, Cb.threw, Bool.or_false] at hkp hov hco
    have g1 : d.fin = false := by rw [hkp]; exact hf.fin
    have g2 : d.killed = true → d.over = true := by
      have : d.killed = t.c.killed := by rw [hkp]
      rw [this, hov]; exact hf.killed
    have g3 : d.sock = t.c.sock := by rw [hkp]
    cases b with
    | true => exact ⟨rfl, hf.retry, g1, g2, by simp [Cb.threw]⟩
    | false =>
      simp only
      split
      · refine recvData_fine ok q as ⟨?_, h.pos⟩ (hco.congr rfl) ⟨hf.retry, g1, g2⟩ ha
        simp only [g3]; exact h.len
      · exact ⟨rfl, hf.retry, g1, g2, by simp [Cb.threw]⟩

theorem sendLoop_fine (ws : List (Nat × WriteAns)) (t : St ow) (bs : List Buf) (h : t.retry = none)
    (hw : ∀ w ∈ ws, w.2 ≠ .fatal ∧ w.2 ≠ .wantRead) (hw' : ∀ w ∈ ws, w.2 ≠ .wantWrite) :
    let r := sendLoop ws false t bs
    r.2 = false ∧ r.1.retry = none ∧ r.1.c.fin = t.c.fin ∧ r.1.c.killed = t.c.killed ∧ r.1.c.over = t.c.over := by
  induction bs generalizing ws t with
  | nil => exact ⟨rfl, h, rfl, rfl, rfl⟩
  | cons b rest ih =>
    unfold sendLoop
    split
    · exact ⟨rfl, h, rfl, rfl, rfl⟩
    · obtain ⟨n, hn⟩ : ∃ n, (ws.headD (0, .taken maxRecord)).2 = .taken n := by
        cases ws with
        | nil => exact ⟨_, rfl⟩
        | cons w ws =>
          have h1 := hw w (by simp)
          have h2 := hw' w (by simp)
          simp only [List.headD_cons]
          cases hc : w.2 with
          | taken n => exact ⟨n, rfl⟩
          | wantWrite => exact absurd hc h2
          | wantRead => exact absurd hc h1.2
          | fatal => exact absurd hc h1.1
      simp only [h, hn, sslWrite, Bool.or_false]
      split
      · exact ih ws.tail _ rfl (fun w hh => hw w (List.mem_of_mem_tail hh)) (fun w hh => hw' w (List.mem_of_mem_tail hh))
      · exact ⟨rfl, rfl, rfl, rfl, rfl⟩

theorem fine_step {cfg : Cfg} (ok : cfg.Ok) (q : Nat → Bool) {t : St cfg.ow} (hi : Inv cfg t) (hf : Fine t)
    (ev : Ev) (h1 : ev.Healthy) (h2 : ev.Flowing) :
    (step cfg q false t ev).2 = false ∧ Fine (step cfg q false t ev).1 := by
  have hsnd : ∀ (ws : List (Nat × WriteAns)) (t0 : St cfg.ow), Fine t0 →
      (∀ w ∈ ws, w.2 ≠ .fatal ∧ w.2 ≠ .wantRead) → (∀ w ∈ ws, w.2 ≠ .wantWrite) →
      (sendData ws false t0).2 = false ∧ Fine (sendData ws false t0).1 := by
    intro ws t0 hf hw hw'
    obtain ⟨e1, e2, e3, e4, e5⟩ := sendLoop_fine ws t0 t0.bufs hf.retry hw hw'
    exact ⟨e1, e2, by rw [sendData, e3, hf.fin], by rw [sendData, e4, e5]; exact hf.killed⟩
  unfold step
  split
  · exact ⟨rfl, hf⟩
  cases ev with
  | arrive bs => simp only; split; exact ⟨rfl, hf⟩; exact ⟨rfl, hf.1, hf.2, hf.3⟩
  | peerClose => exact absurd h1 id
  | sockError => exact absurd h1 id
  | teardown lv => exact absurd h1 id
  | write d acc addr => simp only; split; exact ⟨rfl, hf.1, hf.2, hf.3⟩; exact ⟨rfl, hf⟩
  | shake v ans =>
    simp only
    split
    · obtain ⟨b, hb⟩ : ∃ b, (if v then { t with c := { t.c with readySend := true } } else t) =
          { t with c := { t.c with readySend := b } } := by
        cases v with
        | true => exact ⟨true, rfl⟩
        | false => exact ⟨t.c.readySend, rfl⟩
      unfold shake
      rw [hb]
      simp only
      cases ans with
      | fatal => exact absurd rfl h1.1
      | wantRead => exact ⟨rfl, hf.1, hf.2, hf.3⟩
      | wantWrite => exact ⟨rfl, hf.1, hf.2, hf.3⟩
      | done cert =>
        cases cert with
        | false => exact absurd rfl h1.2
        | true => exact ⟨rfl, hf.1, hf.2, hf.3⟩
    · exact ⟨rfl, hf⟩
  | callback acc =>
    simp only
    have : acc = true := h1
    subst this
    split
    · split
      · exact ⟨rfl, hf.1, hf.2, hf.3⟩
      · exact ⟨rfl, hf.1, hf.2, hf.3⟩
    · exact ⟨rfl, hf⟩
  | readable as =>
    simp only
    split
    · exact (recvData_fine ok q as hi.framed hi.core hf h1).caught
    · exact ⟨rfl, hf⟩
  | poll as =>
    simp only
    split
    · rename_i hc
      split
      · have hcl : t.c.closed = false := by simpa using hc.2
        have ha : t.c.active = true := by
          cases hh : t.c.active with
          | true => rfl
          | false => have := (hi.idle hh).2.2.1; rw [hc.1] at this; cases this
        have hp := hi.plain ha
        have hsl : t.c.sleep = true := by rw [← hp.pollSleep hcl]; exact hc.1
        generalize ht0 : ({ t with c := { t.c with
          poll := false, sleep := false, tries := t.c.tries + 1, delivered := t.c.delivered ++ [t.c.msg] } } :
            St cfg.ow) = t0
        exact (onRead_fine ok q as (by rw [← ht0]; exact ⟨hi.framed.len, hi.framed.pos⟩)
          (by rw [← ht0]; exact ConnIO.core_poll hi.core hsl) (by rw [← ht0]; exact ⟨hf.1, hf.2, hf.3⟩) h1).uncaught
      · exact ⟨rfl, hf.1, hf.2, hf.3⟩
    · exact ⟨rfl, hf⟩
  | notified ws =>
    simp only
    split
    · split
      · exact hsnd ws _ ⟨hf.1, hf.2, hf.3⟩ h1 h2
      · exact ⟨rfl, hf.1, hf.2, hf.3⟩
    · exact ⟨rfl, hf⟩
  | writable ws =>
    simp only
    split
    · exact hsnd ws _ hf h1 h2
    · exact ⟨rfl, hf⟩

theorem fine_run {cfg : Cfg} (ok : cfg.Ok) (q : Nat → Nat → Bool) (evs : List (Nat × Ev)) {w : Worker cfg.ow}
    (hi : ∀ i, Inv cfg (w.conns i)) (he : w.errq = false) (hf : ∀ i, Fine (w.conns i))
    (h1 : ∀ e ∈ evs, e.2.Healthy) (h2 : ∀ e ∈ evs, e.2.Flowing) : ∀ i, Fine ((w.run cfg q evs).conns i) := by
  induction evs generalizing w with
  | nil => exact hf
  | cons e evs ih =>
    have hs := fine_step ok (q e.1) (hi e.1) (hf e.1) e.2 (h1 e (by simp)) (h2 e (by simp))
    rw [← he] at hs
    refine ih (inv_wstep ok q hi e) (hs.1.trans he) ?_ (fun e hh => h1 e (by simp [hh])) (fun e hh => h2 e (by simp [hh]))
    intro i
    simp only [Worker.step]
    split
    · exact hs.2
    · exact hf i

/-- A write that has to be repeated: the next attempt terminates the connection. -/
theorem retry_kills {cfg : Cfg} {t : St cfg.ow} (h : Inv cfg t) (hk : t.c.killed = false) (hr : t.retry ≠ none)
    (ws : List (Nat × WriteAns)) (eq : Bool) : (sendData ws eq t).1.c.killed = true := by
  cases hre : t.retry with
  | none => exact absurd hre hr
  | some al =>
    obtain ⟨a, l⟩ := al
    obtain ⟨b, rest, hb, hba⟩ := h.addr hk a l hre
    have he := h.enc
    rw [hre, hb] at he
    simp only [EncOk, headData, List.head?_cons, Option.map_some, Option.getD_some] at he
    have hne : b.data ≠ [] := by
      intro hh; rw [hh] at he; simp at he; omega
    unfold sendData
    rw [hb]
    unfold sendLoop
    rw [if_neg hne]
    have hf := alloc_fresh (ws.headD (0, .taken maxRecord)).1 (b.addr :: rest.map Buf.addr)
    have hfa : a ≠ alloc (ws.headD (0, .taken maxRecord)).1 (b.addr :: rest.map Buf.addr) := by
      intro hh; apply hf; rw [← hh, ← hba]; simp
    simp only [hre, sslWrite, if_pos (Or.inl hfa), Bool.or_true, St.setBufs]

end Salticidae.Tls
