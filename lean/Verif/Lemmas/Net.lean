import Verif.Spec.Net
import Verif.Props.ConnIO
import Verif.Lemmas.Dispatch
namespace Salticidae
namespace ConnIO

/-- What every callback respects. -/
structure Ext {ow : Nat} (c c' : St ow) : Prop where
  del : c.delivered <+: c'.delivered
  sent : c.sent <+: c'.sent
  arr : c'.arrived = c.arrived
  wr : c'.written = c.written

theorem Ext.refl {ow : Nat} (c : St ow) : Ext c c := ⟨List.prefix_refl _, List.prefix_refl _, rfl, rfl⟩
theorem Ext.trans {ow : Nat} {a b c : St ow} (h : Ext a b) (k : Ext b c) : Ext a c :=
  ⟨h.del.trans k.del, h.sent.trans k.sent, k.arr.trans h.arr, k.wr.trans h.wr⟩

theorem Ext.after {ow : Nat} {a b c : St ow} (k : Ext b c) (h : Ext a b) : Ext a c := h.trans k

theorem ext_payload (cfg : Cfg) (q : Nat → Bool) (c : St cfg.ow) : Ext c (parsePayload cfg q c).1 := by
  unfold parsePayload
  simp only
  split
  · exact Ext.refl _
  · split
    · exact ⟨List.prefix_refl _, List.prefix_refl _, rfl, rfl⟩
    · split
      · exact ⟨List.prefix_append _ _, List.prefix_refl _, rfl, rfl⟩
      · exact ⟨List.prefix_refl _, List.prefix_refl _, rfl, rfl⟩

theorem ext_iter (cfg : Cfg) (q : Nat → Bool) (c : St cfg.ow) : Ext c (parseIter cfg q c).1 := by
  unfold parseIter
  split
  · exact ext_payload ..
  · split
    · exact Ext.refl _
    · simp only
      split
      · exact ⟨List.prefix_refl _, List.prefix_refl _, rfl, rfl⟩
      · split
        · exact ⟨List.prefix_refl _, List.prefix_refl _, rfl, rfl⟩
        · exact Ext.after (ext_payload ..) ⟨List.prefix_refl _, List.prefix_refl _, rfl, rfl⟩

theorem ext_loop (cfg : Cfg) (q : Nat → Bool) : ∀ (f : Nat) (c : St cfg.ow), Ext c (parseLoop cfg q f c).1 := by
  intro f
  induction f with
  | zero => intro c; exact Ext.refl _
  | succ f ih =>
    intro c
    have h := ext_iter cfg q c
    unfold parseLoop
    split
    · rename_i c' e
      rw [e] at h
      exact h.trans (ih c')
    · exact h

theorem ext_onReadLoop (cfg : Cfg) (q : Nat → Bool) (c : St cfg.ow) : Ext c (onReadLoop cfg q c).1.st := by
  unfold onReadLoop
  split
  · exact Ext.refl _
  · have h := ext_loop cfg q (bufBytes c + 2) { c with brk := false }
    have h0 : Ext c { c with brk := false } := ⟨List.prefix_refl _, List.prefix_refl _, rfl, rfl⟩
    split <;> (rename_i e; rw [e] at h; exact h0.trans h)

theorem ext_recvLoop {ow : Nat} (cfg : Cfg) : ∀ (f : Nat) (ks : List Nat) (c : St ow), Ext c (recvLoop cfg f ks c).1 := by
  intro f
  induction f with
  | zero => intro ks c; exact Ext.refl _
  | succ f ih =>
    intro ks c
    unfold recvLoop
    repeat' split
    all_goals first
      | exact ⟨List.prefix_refl _, List.prefix_refl _, rfl, rfl⟩
      | (simp only; split
         · exact Ext.after (ih _ _) ⟨List.prefix_refl _, List.prefix_refl _, rfl, rfl⟩
         · exact ⟨List.prefix_refl _, List.prefix_refl _, rfl, rfl⟩)

theorem ext_recvData (cfg : Cfg) (q : Nat → Bool) (ks : List Nat) (c : St cfg.ow) : Ext c (recvData cfg q ks c).st := by
  unfold recvData
  have h := ext_recvLoop cfg (cfg.maxSegs + 1) ks c
  split
  · rename_i c' e
    rw [e] at h
    exact h.trans (Ext.trans (b := { c' with readyRecv := false }) ⟨List.prefix_refl _, List.prefix_refl _, rfl, rfl⟩ (ext_onReadLoop ..))
  · rename_i e
    rw [e] at h
    exact h

theorem ext_onRead (cfg : Cfg) (q : Nat → Bool) (ks : List Nat) (c : St cfg.ow) : Ext c (onRead cfg q ks c).st := by
  unfold onRead
  have h := ext_onReadLoop cfg q c
  split
  · rename_i e; rw [e] at h; exact h
  · rename_i e; rw [e] at h; exact h
  · rename_i c' e
    rw [e] at h
    split
    · exact h.trans (Ext.trans (b := { c' with readOn := true, writeOn := !c'.readySend }) ⟨List.prefix_refl _, List.prefix_refl _, rfl, rfl⟩ (ext_recvData ..))
    · exact h

theorem ext_sendLoop {ow : Nat} : ∀ (l : List (List Byte)) (rs : List SendRes) (c : St ow), Ext c (sendLoop rs c l) := by
  intro l
  induction l with
  | nil => intro rs c; unfold sendLoop; exact ⟨List.prefix_refl _, List.prefix_refl _, rfl, rfl⟩
  | cons s l ih =>
    intro rs c
    unfold sendLoop
    repeat' split
    all_goals first
      | exact ⟨List.prefix_refl _, List.prefix_refl _, rfl, rfl⟩
      | exact ⟨List.prefix_refl _, List.prefix_append _ _, rfl, rfl⟩
      | exact Ext.after (ih _ _) ⟨List.prefix_refl _, List.prefix_append _ _, rfl, rfl⟩

theorem ext_caught {ow : Nat} {c : St ow} {r : Cb (St ow)} (h : Ext c r.st) : Ext c (caught r) := by
  cases r with
  | ok x => exact h
  | throw x => exact h.trans ⟨List.prefix_refl _, List.prefix_refl _, rfl, rfl⟩
theorem ext_uncaught {ow : Nat} {c : St ow} {r : Cb (St ow)} (h : Ext c r.st) : Ext c (uncaught r) := by
  cases r with
  | ok x => exact h
  | throw x => exact h.trans ⟨List.prefix_refl _, List.prefix_refl _, rfl, rfl⟩

theorem ext_step (cfg : Cfg) (q : Nat → Bool) (c : St cfg.ow) (ev : Ev) (hw : Net.byWorker ev = true) : Ext c (step cfg q c ev) := by
  have r0 : ∀ c' : St cfg.ow, c'.delivered = c.delivered → c'.sent = c.sent → c'.arrived = c.arrived → c'.written = c.written → Ext c c' :=
    fun c' a b d e => ⟨a ▸ List.prefix_refl _, b ▸ List.prefix_refl _, d, e⟩
  unfold step
  split
  · exact Ext.refl _
  cases ev with
  | arrive bs => simp [Net.byWorker] at hw
  | peerClose => simp [Net.byWorker] at hw
  | write d a => simp [Net.byWorker] at hw
  | activate => simp only; split <;> exact r0 _ rfl rfl rfl rfl
  | readable ks =>
    simp only
    split
    · exact ext_caught (ext_recvData ..)
    · exact Ext.refl _
  | poll ks =>
    simp only
    split
    · split
      · exact ext_uncaught (Ext.after (ext_onRead ..) ⟨List.prefix_append _ _, List.prefix_refl _, rfl, rfl⟩)
      · exact r0 _ rfl rfl rfl rfl
    · exact Ext.refl _
  | notified rs =>
    simp only
    split
    · split
      · exact Ext.after (ext_sendLoop ..) ⟨List.prefix_refl _, List.prefix_refl _, rfl, rfl⟩
      · exact r0 _ rfl rfl rfl rfl
    · exact Ext.refl _
  | writable rs =>
    simp only
    split
    · exact ext_sendLoop ..
    · exact Ext.refl _
  | sockError => simp only; split <;> exact r0 _ rfl rfl rfl rfl
  | teardown => simp only; split <;> exact r0 _ rfl rfl rfl rfl

theorem step_arrive (cfg : Cfg) (q : Nat → Bool) (c : St cfg.ow) (bs : List Byte) :
    ((step cfg q c (.arrive bs)).arrived = c.arrived ∨ (step cfg q c (.arrive bs)).arrived = c.arrived ++ bs) ∧
    (step cfg q c (.arrive bs)).sent = c.sent ∧ (step cfg q c (.arrive bs)).delivered = c.delivered ∧ (step cfg q c (.arrive bs)).written = c.written := by
  simp only [step]
  split
  · exact ⟨.inl rfl, rfl, rfl, rfl⟩
  · split
    · exact ⟨.inl rfl, rfl, rfl, rfl⟩
    · exact ⟨.inr rfl, rfl, rfl, rfl⟩

theorem step_peerClose (cfg : Cfg) (q : Nat → Bool) (c : St cfg.ow) :
    (step cfg q c .peerClose).arrived = c.arrived ∧ (step cfg q c .peerClose).sent = c.sent ∧
    (step cfg q c .peerClose).delivered = c.delivered ∧ (step cfg q c .peerClose).written = c.written := by
  simp only [step]
  split <;> exact ⟨rfl, rfl, rfl, rfl⟩

theorem step_write (cfg : Cfg) (q : Nat → Bool) (c : St cfg.ow) (d : List Byte) (hc : c.crashed = false) :
    (step cfg q c (.write d true)).arrived = c.arrived ∧ (step cfg q c (.write d true)).sent = c.sent ∧
    (step cfg q c (.write d true)).delivered = c.delivered ∧ (step cfg q c (.write d true)).written = c.written ++ d ∧
    step cfg q c (.write d false) = c := by
  simp [step, hc]

/-- What arrives is a beginning of the frames sent: what is delivered is a beginning of these. -/
theorem deliver (cfg : Cfg) (ok : cfg.Ok) (q : Nat → Bool) (m0 : Msg cfg.ow) (evs : List Ev) (expected : List Spec.Frame)
    (hv : ∀ f ∈ expected, f.Valid cfg.ow cfg.maxMsg) (hg : ∀ f ∈ expected, (rule cfg).good f.checksum f.payload = true)
    (hpre : (run cfg q (init m0) evs).arrived <+: expected.flatMap Spec.Frame.enc) :
    let r := run cfg q (init m0) evs
    frames cfg r <+: expected ∧
    (r.arrived = expected.flatMap Spec.Frame.enc → r.sock = [] → r.readOn = true → r.poll = false → r.killed = false →
      frames cfg r = expected) := by
  intro r
  have hsp := Spec.split_prefix expected hv r.arrived hpre
  have hov : Spec.oversized (rule cfg) r.arrived = false := hsp.2
  have hmsg : Spec.messages (rule cfg) r.arrived = (Spec.split cfg.ow cfg.maxMsg r.arrived).1 :=
    List.filter_eq_self.mpr fun f hf => hg f (hsp.1.subset hf)
  have hdel := (C23_backpressure cfg ok q m0 evs hov).2
  refine ⟨hdel.trans (by rw [hmsg]; exact hsp.1), ?_⟩
  intro hall hsock hron hpoll hk
  have hcl : Spec.clean (rule cfg) r.arrived = true :=
    List.all_eq_true.mpr fun f hf => hg f (hsp.1.subset hf)
  have h1 := (C28_close_partial cfg ok q m0 evs [] hov hcl hsock hron hk hpoll).1
  have h2 := Spec.split_encs expected hv []
  rw [List.append_nil, ← hall, Spec.split_short (bs := []) (by simp; omega)] at h2
  rw [h1, hmsg, h2]
  simp

end ConnIO

namespace Net
variable {V : Type}

theorem mate_mate (i : Nat) : mate (mate i) = i := by unfold mate; split <;> split <;> omega
theorem mate_ne (i : Nat) : mate i ≠ i := by unfold mate; split <;> omega

theorem code_pos : ∀ bs : List Byte, 0 < code bs
  | [] => Nat.one_pos
  | b :: bs => by have := code_pos bs; simp only [code]; omega

theorem uncode_code : ∀ bs : List Byte, uncode (code bs) = bs
  | [] => by unfold uncode; rfl
  | b :: bs => by
    have h := code_pos bs
    have hb := b.isLt
    have e1 : (code bs * 256 + b.toNat) % 256 = b.toNat := by omega
    have e2 : (code bs * 256 + b.toNat) / 256 = code bs := by omega
    unfold uncode
    rw [if_neg (by simp only [code]; omega)]
    simp only [code]
    rw [e1, e2, uncode_code bs]
    simp

/-- The message that a call of enqueue is about to put into the queue. -/
def enqAt (d : Disp.St) (k : Nat) : Option Disp.Msg :=
  match d.ev.prods[k]? with
  | some (.enq a) => some a
  | _ => none

theorem enqAt_eq (d : Disp.St) (k : Nat) (a : Disp.Msg) : enqAt d k = some a ↔ d.ev.prods[k]? = some (.enq a) := by
  unfold enqAt
  split
  · rename_i x e; rw [e]; simp
  · rename_i h
    constructor
    · intro h; cases h
    · intro h'; exact absurd h' (h a)

/-- What a step of the loop or of an enqueue does. -/
structure Eff (d d' : Disp.St) : Prop where
  sys : d'.sys = d.sys
  hist : ∃ ms : List Disp.Msg, d'.hist = d.hist ++ ms.map .msg
  len : d'.ev.prods.length = d.ev.prods.length
  acc : (d'.ev.accepted = d.ev.accepted ∧ ∀ k, enqAt d' k = enqAt d k) ∨
    ∃ k a, enqAt d k = some a ∧ d'.ev.accepted = d.ev.accepted ++ [a] ∧ ∀ j, enqAt d' j = if j = k then none else enqAt d j

theorem enqAt_of {d d' : Disp.St} (h : d'.ev.prods = d.ev.prods) (k : Nat) : enqAt d' k = enqAt d k := by unfold enqAt; rw [h]

theorem set_getElem? {α : Type} (l : List α) (k j : Nat) (x y : α) (h : l[k]? = some y) : (l.set k x)[j]? = if j = k then some x else l[j]? := by
  have hk : k < l.length := (List.getElem?_eq_some_iff.1 h).1
  rw [List.getElem?_set]
  by_cases e : k = j
  · subst e; simp [hk]
  · rw [if_neg e, if_neg (Ne.symm e)]

theorem handleOne_ev (beh : Disp.Handler → Disp.Msg → Disp.Beh) (d : Disp.St) (m : Disp.Msg) :
    (Disp.handleOne beh d m).ev = d.ev ∧ (Disp.handleOne beh d m).sys = d.sys ∧ (Disp.handleOne beh d m).hist = d.hist ++ [.msg m] := by
  unfold Disp.handleOne
  simp only
  split
  · exact ⟨rfl, rfl, rfl⟩
  · split
    · exact ⟨rfl, rfl, rfl⟩
    · split <;> exact ⟨rfl, rfl, rfl⟩
    · exact ⟨rfl, rfl, rfl⟩

theorem disp_eff {beh : Disp.Handler → Disp.Msg → Disp.Beh} {burst : Nat} {d d' : Disp.St} {a : Disp.Act}
    (hl : byLoop a = true) (hs : d.sys = 1) (h : Disp.step beh burst d a = some d') : Eff d d' := by
  unfold Disp.step at h
  split at h
  · cases h
  have same : ∀ d' : Disp.St, d'.sys = d.sys → (∃ ms : List Disp.Msg, d'.hist = d.hist ++ ms.map .msg) → d'.ev.prods = d.ev.prods → d'.ev.accepted = d.ev.accepted → Eff d d' :=
    fun d' a b c e => ⟨a, b, by rw [c], .inl ⟨e, fun k => enqAt_of c k⟩⟩
  cases a with
  | recv m => simp [byLoop] at hl
  | refuse i => simp [byLoop] at hl
  | reg o x => simp [byLoop] at hl
  | stop => simp [byLoop] at hl
  | prod i =>
    simp only [Option.map_eq_some_iff] at h
    obtain ⟨ev, h, rfl⟩ := h
    unfold EvQ.step at h
    simp only at h
    have go : ∀ x, (∀ a, x ≠ .enq a) → ev.prods = d.ev.prods.set i x → ∀ y, d.ev.prods[i]? = some y → (∀ a, y ≠ .enq a) → ∀ k, enqAt { d with ev := ev } k = enqAt d k := by
      intro x hx hp y hy hy' k
      unfold enqAt
      simp only [hp, set_getElem? _ _ _ _ _ hy]
      by_cases e : k = i
      · subst e
        rw [if_pos rfl, hy]
        cases x <;> cases y <;> simp_all
      · rw [if_neg e]
    split at h
    · rename_i a e
      cases h
      refine ⟨rfl, ⟨[], by simp⟩, by simp, .inr ⟨i, a, by rw [enqAt_eq]; exact e, rfl, ?_⟩⟩
      intro j
      unfold enqAt
      simp only [set_getElem? _ _ _ _ _ e]
      by_cases e : j = i
      · simp [e]
      · simp only [if_neg e]
    · rename_i e
      cases h
      exact ⟨rfl, ⟨[], by simp⟩, by simp, .inl ⟨rfl, go _ (by intro a; split <;> simp) rfl _ e (by simp)⟩⟩
    · rename_i e
      cases h
      exact ⟨rfl, ⟨[], by simp⟩, by simp, .inl ⟨rfl, go _ (by simp) rfl _ e (by simp)⟩⟩
    · cases h
  | fire =>
    simp only [Option.map_eq_some_iff] at h
    obtain ⟨ev, h, rfl⟩ := h
    unfold EvQ.step at h
    simp only at h
    split at h
    · cases h; exact same _ rfl ⟨[], by simp⟩ rfl rfl
    · cases h
  | cb =>
    simp only [Option.map_eq_some_iff] at h
    obtain ⟨ev, h, rfl⟩ := h
    unfold EvQ.step at h
    simp only at h
    split at h
    · split at h <;> (cases h; exact same _ rfl ⟨[], by simp⟩ rfl rfl)
    · cases h; exact same _ rfl ⟨[], by simp⟩ rfl rfl
    · cases h; exact same _ rfl ⟨[], by simp⟩ rfl rfl
    · cases h
  | idle =>
    simp only [Option.map_eq_some_iff] at h
    obtain ⟨ev, h, rfl⟩ := h
    unfold EvQ.step at h
    simp only at h
    split at h
    · cases h; exact same _ rfl ⟨[], by simp⟩ rfl rfl
    · cases h
  | handle =>
    simp only at h
    split at h
    · cases h
    · rename_i m _ _
      split at h
      · cases h
      · rename_i ev e
        have e' : ev.prods = d.ev.prods ∧ ev.accepted = d.ev.accepted := by
          unfold EvQ.step at e
          simp only at e
          split at e
          · cases e; exact ⟨rfl, rfl⟩
          · cases e
        obtain ⟨k1, k2, k3⟩ := handleOne_ev beh { d with ev := ev, cnt := d.cnt + 1 } m
        rw [if_neg (by simp [hs])] at h
        split at h
        · cases h
          exact same _ k2 ⟨[m], by rw [k3]; rfl⟩ (by rw [k1]; exact e'.1) (by rw [k1]; exact e'.2)
        · split at h
          · simp only [Option.map_eq_some_iff] at h
            obtain ⟨ev', h, rfl⟩ := h
            unfold EvQ.step at h
            simp only at h
            split at h
            · cases h
              exact same _ k2 ⟨[m], by simp only [k3]; rfl⟩ e'.1 e'.2
            · cases h
          · cases h
            exact same _ k2 ⟨[m], by rw [k3]; rfl⟩ (by rw [k1]; exact e'.1) (by rw [k1]; exact e'.2)

theorem recv_eff {beh : Disp.Handler → Disp.Msg → Disp.Beh} {burst : Nat} {d d' : Disp.St} {m : Disp.Msg}
    (h : Disp.step beh burst d (.recv m) = some d') :
    d'.sys = d.sys ∧ d'.hist = d.hist ∧ d'.ev.prods = d.ev.prods ++ [.enq m] ∧ d'.ev.accepted = d.ev.accepted := by
  unfold Disp.step at h
  split at h
  · cases h
  simp only [Option.map_eq_some_iff] at h
  obtain ⟨ev, h, rfl⟩ := h
  cases h
  exact ⟨rfl, rfl, rfl, rfl⟩

/-- The frame of a typed message. -/
def frameOf (g : Cfg V) (m : BitVec (8 * g.ow) × V) : Spec.Frame :=
  ⟨g.magic.toNat, memEnc g.e m.1, (Msg.checksumOf g.e g.H (g.enc m.1 m.2).buffer).toNat, (g.enc m.1 m.2).buffer⟩

theorem wire_eq (g : Cfg V) (op : BitVec (8 * g.ow)) (v : V) (ho : (g.enc op v).offset = 0) (hl : (g.enc op v).buffer.length < 2 ^ 32) :
    wire g op v = some (frameOf g (op, v)).enc := by
  have h1 : (g.enc op v).toBytesLvalue = .ok (g.enc op v) (g.enc op v).buffer := by simp [DataStream.toBytesLvalue, ho]
  have hm : Msg.ofTyped g.e g.H op (g.enc op v) g.magic = some ⟨g.magic, op, BitVec.ofNat _ (g.enc op v).buffer.length,
      Msg.checksumOf g.e g.H (g.enc op v).buffer, (g.enc op v).buffer, false⟩ := by
    simp [Msg.ofTyped, h1, Msg.setChecksum, Msg.getChecksum, Msg.setPayload, Msg.setOpcode, Msg.fresh]
  unfold wire
  rw [hm, Option.map_some, Msg.serialize_eq]
  simp only [Msg.headerBytes, Spec.Frame.enc, BitVec.toNat_ofNat, frameOf]
  rw [Nat.mod_eq_of_lt (by omega)]

/-- What can be said of a message that was sent. -/
structure Sent (g : Cfg V) (i : Nat) (m : BitVec (8 * g.ow) × V) : Prop where
  off : (g.enc m.1 m.2).offset = 0
  dec : g.dec m.1.toNat (DataStream.ofBytes (g.enc m.1 m.2).buffer) = some m.2
  fits : Spec.Net.Fits g (mate i) m.1 m.2
  handler : Spec.Net.handlerOf (g.handlers (g.node (mate i))) m.1.toNat ≠ none

/-- The message an end is putting into the queue. -/
def wait {g : Cfg V} (s : St g) (i : Nat) : List Disp.Msg := ((s.cur i).bind (enqAt (s.disp (g.node i)))).toList

def fromEnd (i : Nat) (m : Disp.Msg) : Bool := decide (m.conn = i)

structure I (g : Cfg V) (s : St g) : Prop where
  hist : ∀ i, ∃ evs, s.conn i = ConnIO.run (g.io i) (g.q i) (ConnIO.init g.m0) evs
  wr : ∀ i, (s.conn i).written = (s.log i).flatMap (fun m => (frameOf g m).enc)
  sent : ∀ i, ∀ m ∈ s.log i, Sent g i m
  arr : ∀ i, (s.conn i).arrived <+: (s.conn (mate i)).sent
  dinv : ∀ n, Disp.Inv (g.beh n) (g.burst n) (s.disp n)
  sys : ∀ n, (s.disp n).sys = 1
  shape : ∀ n, ∃ ms : List Disp.Msg, (s.disp n).hist = (g.handlers n).map (fun x => .reg x.1 x.2) ++ ms.map .msg
  prods : ∀ n k a, enqAt (s.disp n) k = some a → g.node a.conn = n ∧ s.cur a.conn = some k
  curlt : ∀ i k, s.cur i = some k → k < (s.disp (g.node i)).ev.prods.length
  flow : ∀ i, (s.disp (g.node i)).ev.accepted.filter (fromEnd i) ++ wait s i ++ s.pend i = (s.conn i).delivered.map (item i)
  pend : ∀ i, ∀ m ∈ s.pend i, m.conn = i

theorem booted_inv (g : Cfg V) (n : Nat) : Disp.Inv (g.beh n) (g.burst n) (booted (g.handlers n)) := by
  have h : ∀ (l : List (Nat × Disp.Handler)) (d : Disp.St), Disp.Inv (g.beh n) (g.burst n) d → d.sys = 1 → d.crashed = false →
      Disp.Inv (g.beh n) (g.burst n) { d with
        handlers := l.foldl (fun t x => Disp.setHandler t x.1 x.2) d.handlers
        hist := d.hist ++ l.map fun x => .reg x.1 x.2 } := by
    intro l
    induction l with
    | nil => intro d hi _ _; simpa using hi
    | cons x l ih =>
      intro d hi hs hc
      have h1 := Disp.inv_step (a := .reg x.1 x.2) hi (s' := { d with handlers := Disp.setHandler d.handlers x.1 x.2, hist := d.hist ++ [.reg x.1 x.2] })
        (by unfold Disp.step; rw [if_neg (by simp [hc])]) hs
      have h2 := ih _ h1 hs hc
      simpa using h2
  have := h (g.handlers n) Disp.init Disp.inv_init rfl rfl
  simpa [booted, Disp.init] using this

theorem i_init (g : Cfg V) : I g (init g) where
  hist := fun i => ⟨[], rfl⟩
  wr := fun i => rfl
  sent := by intro i m h; cases h
  arr := fun i => List.prefix_refl _
  dinv := fun n => booted_inv g n
  sys := fun n => rfl
  shape := fun n => ⟨[], by simp [init, booted]⟩
  prods := by intro n k a h; simp [enqAt, init, booted, Disp.init, EvQ.init] at h
  curlt := by intro i k h; cases h
  flow := fun i => rfl
  pend := by intro i m h; cases h

theorem upd_self {α : Type} (f : Nat → α) (i : Nat) (v : α) : upd f i v i = v := by simp [upd]
theorem upd_ne {α : Type} (f : Nat → α) {i j : Nat} (v : α) (h : j ≠ i) : upd f i v j = f j := by simp [upd, h]

/-- A step of one end that leaves the queue alone. -/
theorem i_conn {g : Cfg V} {s : St g} (hi : I g s) (i : Nat) (ev : ConnIO.Ev) (lg : List (BitVec (8 * g.ow) × V))
    (c : ConnIO.St g.ow) (hc : c = ConnIO.step (g.io i) (g.q i) (s.conn i) ev)
    (ar : c.arrived <+: (s.conn (mate i)).sent) (se : (s.conn i).sent <+: c.sent)
    (de : (s.conn i).delivered <+: c.delivered)
    (wr : c.written = lg.flatMap (fun m => (frameOf g m).enc)) (hl : ∀ m ∈ lg, Sent g i m) :
    I g { s with
      conn := upd s.conn i c
      log := upd s.log i lg
      pend := upd s.pend i (s.pend i ++ (c.delivered.drop (s.conn i).delivered.length).map (item i)) } where
  hist := by
    intro j
    by_cases e : j = i
    · subst e
      obtain ⟨evs, he⟩ := hi.hist j
      refine ⟨evs ++ [ev], ?_⟩
      simp only [upd_self]
      rw [hc, he, ConnIO.run, ConnIO.run, List.foldl_append]
      rfl
    · simp only [upd_ne _ _ e]; exact hi.hist j
  wr := by
    intro j
    by_cases e : j = i
    · subst e; simp only [upd_self]; exact wr
    · simp only [upd_ne _ _ e]; exact hi.wr j
  sent := by
    intro j
    by_cases e : j = i
    · subst e; simp only [upd_self]; exact hl
    · simp only [upd_ne _ _ e]; exact hi.sent j
  arr := by
    intro j
    by_cases e : j = i
    · subst e; simp only [upd_self, upd_ne _ _ (mate_ne j)]; exact ar
    · simp only [upd_ne _ _ e]
      by_cases e' : mate j = i
      · rw [e', upd_self]
        have := hi.arr j
        rw [e'] at this
        exact this.trans se
      · rw [upd_ne _ _ e']; exact hi.arr j
  dinv := hi.dinv
  sys := hi.sys
  shape := hi.shape
  prods := hi.prods
  curlt := hi.curlt
  flow := by
    intro j
    by_cases e : j = i
    · subst e
      have h := hi.flow j
      simp only [upd_self]
      obtain ⟨t, ht⟩ := de
      have : wait { s with
          conn := upd s.conn j c
          log := upd s.log j lg
          pend := upd s.pend j (s.pend j ++ (c.delivered.drop (s.conn j).delivered.length).map (item j)) } j = wait s j := rfl
      rw [this, ← List.append_assoc, h, ← ht]
      simp
    · simp only [upd_ne _ _ e]; exact hi.flow j
  pend := by
    intro j m hm
    by_cases e : j = i
    · subst e
      simp only [upd_self, List.mem_append, List.mem_map] at hm
      rcases hm with hm | ⟨x, _, rfl⟩
      · exact hi.pend j m hm
      · rfl
    · simp only [upd_ne _ _ e] at hm; exact hi.pend j m hm

theorem upd_same {α : Type} (f : Nat → α) (i : Nat) : upd f i (f i) = f := by
  funext j; unfold upd; split <;> simp_all

/-- The same if nothing is delivered. -/
theorem i_quiet {g : Cfg V} {s : St g} (hi : I g s) (i : Nat) (ev : ConnIO.Ev) (lg : List (BitVec (8 * g.ow) × V))
    (c : ConnIO.St g.ow) (hc : c = ConnIO.step (g.io i) (g.q i) (s.conn i) ev)
    (ar : c.arrived <+: (s.conn (mate i)).sent) (se : (s.conn i).sent <+: c.sent)
    (de : c.delivered = (s.conn i).delivered)
    (wr : c.written = lg.flatMap (fun m => (frameOf g m).enc)) (hl : ∀ m ∈ lg, Sent g i m) :
    I g { s with conn := upd s.conn i c, log := upd s.log i lg } := by
  have h := i_conn hi i ev lg c hc ar se (by rw [de]; exact List.prefix_refl _) wr hl
  rw [de] at h
  simpa [upd_same] using h

theorem i_step {g : Cfg V} {s s' : St g} {a : Act g} (hi : I g s) (hp : Spec.Net.Proper g [a]) (h : step g s a = some s') : I g s' := by
  cases a with
  | send i op v ok =>
    simp only [step] at h
    have hs : Sent g i (op, v) :=
      ⟨(hp.codec i op v ok (by simp)).1, (hp.codec i op v ok (by simp)).2, hp.fits i op v ok (by simp), hp.handler i op v ok (by simp)⟩
    have hc : (s.conn i).crashed = false := by
      cases e : (s.conn i).crashed with
      | false => rfl
      | true => simp [e] at h
    rw [if_neg (by simp [hc]), wire_eq g op v hs.off hs.fits.2] at h
    simp only [Option.some.injEq] at h
    subst h
    cases ok with
    | false =>
      have hst := (ConnIO.step_write (g.io i) (g.q i) (s.conn i) (frameOf g (op, v)).enc hc).2.2.2.2
      rw [hst]
      simp only [Bool.false_eq_true, if_false, upd_same]
      exact hi
    | true =>
      obtain ⟨w1, w2, w3, w4, _⟩ := ConnIO.step_write (g.io i) (g.q i) (s.conn i) (frameOf g (op, v)).enc hc
      refine i_quiet hi i (.write (frameOf g (op, v)).enc true) (s.log i ++ [(op, v)]) _ rfl ?_ ?_ w3 ?_ ?_
      · rw [w1]; exact hi.arr i
      · rw [w2]; exact List.prefix_refl _
      · rw [w4, hi.wr i]; simp
      · intro m hm
        rcases List.mem_append.1 hm with hm | hm
        · exact hi.sent i m hm
        · rw [List.mem_singleton.1 hm]; exact hs
  | io i ev =>
    simp only [step] at h
    split at h
    · rename_i hw
      cases h
      have hx := ConnIO.ext_step (g.io i) (g.q i) (s.conn i) ev hw
      have := i_conn hi i ev (s.log i) _ rfl (by rw [hx.arr]; exact hi.arr i) hx.sent hx.del (by rw [hx.wr]; exact hi.wr i) (hi.sent i)
      rw [upd_same] at this
      exact this
    · cases h
  | net i k =>
    simp only [step, Option.some.injEq] at h
    subst h
    obtain ⟨k0, k2, k3, k4⟩ := ConnIO.step_arrive (g.io i) (g.q i) (s.conn i) (((s.conn (mate i)).sent.drop (s.conn i).arrived.length).take k)
    have k1 : (ConnIO.step (g.io i) (g.q i) (s.conn i) (.arrive (((s.conn (mate i)).sent.drop (s.conn i).arrived.length).take k))).arrived <+: (s.conn (mate i)).sent := by
      rcases k0 with k0 | k0
      · rw [k0]; exact hi.arr i
      · rw [k0]
        obtain ⟨t, ht⟩ := hi.arr i
        have hd : (s.conn (mate i)).sent.drop (s.conn i).arrived.length = t := by rw [← ht]; simp
        rw [hd, ← ht, List.prefix_append_right_inj]
        exact List.take_prefix _ _
    have := i_quiet hi i _ (s.log i) _ rfl k1 (by rw [k2]; exact List.prefix_refl _) k3 (by rw [k4]; exact hi.wr i) (hi.sent i)
    rw [upd_same] at this
    exact this
  | close i =>
    simp only [step] at h
    split at h
    · cases h
      obtain ⟨k1, k2, k3, k4⟩ := ConnIO.step_peerClose (g.io i) (g.q i) (s.conn i)
      have := i_quiet hi i .peerClose (s.log i) _ rfl (by rw [k1]; exact hi.arr i) (by rw [k2]; exact List.prefix_refl _) k3 (by rw [k4]; exact hi.wr i) (hi.sent i)
      rw [upd_same] at this
      exact this
    · cases h
  | enq i =>
    simp only [step] at h
    split at h
    · cases h
    · rename_i m ms hm
      split at h
      · rename_i hr
        simp only [Option.map_eq_some_iff] at h
        obtain ⟨d, hd, rfl⟩ := h
        obtain ⟨d1, d2, d3, d4⟩ := recv_eff hd
        have hmi : m.conn = i := hi.pend i m (by rw [hm]; simp)
        have henq : ∀ k, enqAt d k = if k = (s.disp (g.node i)).ev.prods.length then some m else enqAt (s.disp (g.node i)) k := by
          intro k
          unfold enqAt
          rw [d3]
          by_cases e : k = (s.disp (g.node i)).ev.prods.length
          · subst e; simp
          · rw [if_neg e]
            by_cases e' : k < (s.disp (g.node i)).ev.prods.length
            · rw [List.getElem?_append_left e']
            · rw [List.getElem?_eq_none (by simp; omega), List.getElem?_eq_none (by omega)]
        have hw0 : wait s i = [] := by
          unfold wait
          cases hcur : s.cur i with
          | none => rfl
          | some k =>
            rw [hcur] at hr
            simp only [returned] at hr
            simp only [Option.bind_some, enqAt]
            split at hr
            · rename_i e; rw [e]; rfl
            · simp at hr
        refine ⟨hi.hist, hi.wr, hi.sent, hi.arr, ?_, ?_, ?_, ?_, ?_, ?_, ?_⟩
        · intro n
          by_cases e : n = g.node i
          · subst e; simp only [upd_self]; exact Disp.inv_step (hi.dinv _) hd (hi.sys _)
          · simp only [upd_ne _ _ e]; exact hi.dinv n
        · intro n
          by_cases e : n = g.node i
          · subst e; simp only [upd_self]; rw [d1]; exact hi.sys _
          · simp only [upd_ne _ _ e]; exact hi.sys n
        · intro n
          by_cases e : n = g.node i
          · subst e; simp only [upd_self]; rw [d2]; exact hi.shape _
          · simp only [upd_ne _ _ e]; exact hi.shape n
        · intro n k a ha
          by_cases e : n = g.node i
          · subst e
            simp only [upd_self, henq] at ha
            split at ha
            · rename_i ek
              cases ha
              rw [hmi]
              exact ⟨rfl, by simp only [upd_self, ek]⟩
            · obtain ⟨h1, h2⟩ := hi.prods _ _ _ ha
              refine ⟨h1, ?_⟩
              by_cases e' : a.conn = i
              · exfalso
                rw [e'] at h2
                have : wait s i = [a] := by simp [wait, h2, ha]
                rw [hw0] at this; cases this
              · simp only [upd_ne _ _ e']; exact h2
          · simp only [upd_ne _ _ e] at ha
            obtain ⟨h1, h2⟩ := hi.prods _ _ _ ha
            refine ⟨h1, ?_⟩
            have e' : a.conn ≠ i := by intro h'; rw [h'] at h1; exact e h1.symm
            simp only [upd_ne _ _ e']; exact h2
        · intro j k hk
          by_cases e : j = i
          · subst e
            simp only [upd_self, Option.some.injEq] at hk ⊢
            rw [d3]; simp; omega
          · simp only [upd_ne _ _ e] at hk
            have := hi.curlt j k hk
            by_cases e' : g.node j = g.node i
            · simp only [e', upd_self]; rw [d3]; simp; rw [e'] at this; omega
            · simp only [upd_ne _ _ e']; exact this
        · intro j
          have hf := hi.flow j
          by_cases e : j = i
          · subst e
            rw [hw0, hm] at hf
            simp only [wait, upd_self, Option.bind_some, henq, d4]
            simpa using hf
          · simp only [wait, upd_ne _ _ e] at hf ⊢
            by_cases e' : g.node j = g.node i
            · simp only [e', upd_self, d4] at hf ⊢
              rw [← hf]
              congr 2
              cases hc : s.cur j with
              | none => rfl
              | some k =>
                simp only [Option.bind_some]
                rw [henq, if_neg]
                have := hi.curlt j k hc
                rw [e'] at this
                omega
            · simp only [upd_ne _ _ e']; exact hf
        · intro j x hx
          by_cases e : j = i
          · subst e
            simp only [upd_self] at hx
            exact hi.pend j x (by rw [hm]; simp [hx])
          · simp only [upd_ne _ _ e] at hx; exact hi.pend j x hx
      · cases h
  | disp n a =>
    simp only [step] at h
    split at h
    · rename_i hl
      simp only [Option.map_eq_some_iff] at h
      obtain ⟨d, hd, rfl⟩ := h
      have he := disp_eff hl (hi.sys n) hd
      refine ⟨hi.hist, hi.wr, hi.sent, hi.arr, ?_, ?_, ?_, ?_, ?_, ?_, hi.pend⟩
      · intro m
        by_cases e : m = n
        · subst e; simp only [upd_self]; exact Disp.inv_step (hi.dinv _) hd (hi.sys _)
        · simp only [upd_ne _ _ e]; exact hi.dinv m
      · intro m
        by_cases e : m = n
        · subst e; simp only [upd_self]; rw [he.sys]; exact hi.sys _
        · simp only [upd_ne _ _ e]; exact hi.sys m
      · intro m
        by_cases e : m = n
        · subst e
          simp only [upd_self]
          obtain ⟨ms, h1⟩ := hi.shape m
          obtain ⟨ms', h2⟩ := he.hist
          exact ⟨ms ++ ms', by rw [h2, h1]; simp⟩
        · simp only [upd_ne _ _ e]; exact hi.shape m
      · intro m k a ha
        by_cases e : m = n
        · subst e
          simp only [upd_self] at ha
          refine hi.prods m k a ?_
          rcases he.acc with ⟨_, h2⟩ | ⟨k', a', _, _, h2⟩
          · rw [← h2]; exact ha
          · rw [h2] at ha
            split at ha
            · cases ha
            · exact ha
        · simp only [upd_ne _ _ e] at ha; exact hi.prods m k a ha
      · intro j k hk
        have := hi.curlt j k hk
        by_cases e' : g.node j = n
        · simp only [e', upd_self]; rw [he.len]; rw [e'] at this; exact this
        · simp only [upd_ne _ _ e']; exact this
      · intro j
        have hf := hi.flow j
        by_cases e' : g.node j = n
        · subst e'
          simp only [wait, upd_self] at hf ⊢
          rcases he.acc with ⟨h1, h2⟩ | ⟨k, a, h0, h1, h2⟩
          · rw [h1, show enqAt d = enqAt (s.disp (g.node j)) from funext h2]; exact hf
          · obtain ⟨p1, p2⟩ := hi.prods _ _ _ h0
            rw [h1, List.filter_append]
            by_cases e : a.conn = j
            · rw [e] at p2
              rw [p2] at hf ⊢
              simp only [Option.bind_some, h2, if_true, h0] at hf ⊢
              simpa [fromEnd, e] using hf
            · have : (s.cur j).bind (enqAt d) = (s.cur j).bind (enqAt (s.disp (g.node j))) := by
                cases hc : s.cur j with
                | none => rfl
                | some k' =>
                  simp only [Option.bind_some, h2]
                  rw [if_neg]
                  intro ek
                  subst ek
                  have hx : a.conn = j := by
                    have hm : a ∈ (s.conn j).delivered.map (item j) := by
                      rw [← hf, hc]
                      simp [h0]
                    obtain ⟨x, _, rfl⟩ := List.mem_map.1 hm
                    rfl
                  exact e hx
              rw [this]
              simpa [fromEnd, e] using hf
        · simp only [wait, upd_ne _ _ e'] at hf ⊢; exact hf
    · cases h

theorem i_run {g : Cfg V} : ∀ (as : List (Act g)) (s s' : St g), I g s → Spec.Net.Proper g as → run g s as = some s' → I g s' := by
  intro as
  induction as with
  | nil => intro s s' hi _ h; cases h; exact hi
  | cons a as ih =>
    intro s s' hi hp h
    simp only [run] at h
    rcases e : step g s a with _ | s1
    · rw [e] at h; cases h
    · rw [e] at h
      have sub : ∀ l : List (Act g), (∀ x ∈ l, x ∈ a :: as) → Spec.Net.Proper g l := fun l hl =>
        ⟨fun i op v ok hm => hp.codec i op v ok (hl _ hm), hp.sizes, fun i op v ok hm => hp.fits i op v ok (hl _ hm),
          fun i op v ok hm => hp.handler i op v ok (hl _ hm)⟩
      exact ih s1 s' (i_step hi (sub [a] (by simp)) e) (sub as (by intro x hx; simp [hx])) h

theorem del_regs {es : List Disp.Event} {calls : List (Disp.Handler × Disp.Msg)} :
    ∀ (l : List (Nat × Disp.Handler)) (past : List Disp.Event), Spec.Disp.Delivered past (l.map (fun x => .reg x.1 x.2) ++ es) calls →
      Spec.Disp.Delivered (past ++ l.map (fun x => .reg x.1 x.2)) es calls := by
  intro l
  induction l with
  | nil => intro past h; simpa using h
  | cons x l ih =>
    intro past h
    cases h with
    | reg hd => simpa using ih _ hd

theorem del_msgs {R : Nat → Option Disp.Handler} : ∀ (ms : List Disp.Msg) (past : List Disp.Event) (calls : List (Disp.Handler × Disp.Msg)),
    (∀ op, Spec.Disp.lastReg op past = R op) → Spec.Disp.Delivered past (ms.map .msg) calls →
    calls = ms.filterMap (fun m => (R m.op).map fun h => (h, m)) := by
  intro ms
  induction ms with
  | nil => intro past calls _ h; cases h; rfl
  | cons m ms ih =>
    intro past calls hr h
    have hr' : ∀ op, Spec.Disp.lastReg op (past ++ [.msg m]) = R op := by
      intro op; rw [Disp.lastReg_append]; simp [Spec.Disp.lastReg, hr]
    cases h with
    | drop hn hd => rw [List.filterMap_cons, ← hr, hn]; exact ih _ _ hr' hd
    | call hn hd => rw [List.filterMap_cons, ← hr, hn]; simp [ih _ _ hr' hd]

theorem lastReg_regs (op : Nat) : ∀ l : List (Nat × Disp.Handler), Spec.Disp.lastReg op (l.map fun x => .reg x.1 x.2) = Spec.Net.handlerOf l op := by
  intro l
  induction l with
  | nil => rfl
  | cons x l ih =>
    simp only [List.map_cons, Spec.Disp.lastReg, ih, Spec.Net.handlerOf, List.reverse_cons, List.find?_append]
    cases h : l.reverse.find? (fun x => decide (x.1 = op)) with
    | some y => simp
    | none => by_cases e : x.1 = op <;> simp [e]

theorem rest_all {beh : Disp.Handler → Disp.Msg → Disp.Beh} {burst : Nat} {d : Disp.St} (hi : Disp.Inv beh burst d) (hr : Disp.atRest d = true) :
    Spec.Disp.msgs d.hist = d.ev.accepted ∧ ∀ k, enqAt d k = none := by
  have hacc : d.ev.accepted = Spec.Disp.msgs d.hist ++ d.ev.q := by rw [hi.seen]; exact hi.ev.fifo
  simp only [Disp.atRest, Bool.and_eq_true, beq_iff_eq] at hr
  obtain ⟨⟨hp, hc⟩, hf⟩ := hr
  have hnp : ∀ p, (∀ r, p ≠ .done r) → p ∉ d.ev.prods := by
    intro p hp' hm
    have := List.all_eq_true.1 hp p hm
    cases p <;> simp_all
  have hq : d.ev.q = [] := by
    by_cases h0 : d.ev.q = []
    · exact h0
    · exfalso
      rcases hi.ev.look h0 with h | h | h | h | h | h
      · omega
      · exact hnp _ (by simp) h
      · exact hnp _ (by simp) h
      all_goals (rw [hc] at h; simp at h)
  rw [hq, List.append_nil] at hacc
  refine ⟨hacc.symm, fun k => ?_⟩
  cases h : enqAt d k with
  | none => rfl
  | some a =>
    rw [enqAt_eq] at h
    exact absurd (List.mem_of_getElem? h) (hnp _ (by simp))

/-- The message as it enters the queue of the other end's node. -/
def itemOf (g : Cfg V) (i : Nat) (m : BitVec (8 * g.ow) × V) : Disp.Msg := ⟨m.1.toNat, i, code (g.enc m.1 m.2).buffer⟩

/-- The calls of handlers for messages of an end are for a beginning of what has been sent to it. -/
theorem calls_of_log (g : Cfg V) (as : List (Act g)) (s : St g) (hp : Spec.Net.Proper g as) (h : run g (init g) as = some s) (i : Nat) :
    ∃ l, l <+: s.log (mate i) ∧ (∀ m ∈ l, Sent g (mate i) m) ∧ (drained g s i → l = s.log (mate i)) ∧
      (s.disp (g.node i)).calls.filter (fun x => decide (x.2.conn = i)) =
        (l.map (itemOf g i)).filterMap (fun m => (Spec.Net.handlerOf (g.handlers (g.node i)) m.op).map fun h => (h, m)) := by
  have hi := i_run as _ _ (i_init g) hp h
  let F : Spec.Frame → Disp.Msg := fun f => ⟨(memDec g.e g.ow f.opcode).toNat, i, code f.payload⟩
  have ok : ∀ j, (g.io j).Ok := hp.sizes
  have hsent : ∀ m ∈ s.log (mate i), Sent g (mate i) m := hi.sent (mate i)
  have hv : ∀ f ∈ (s.log (mate i)).map (frameOf g), f.Valid (g.io i).ow (g.io i).maxMsg := by
    intro f hf
    obtain ⟨m, hm, rfl⟩ := List.mem_map.1 hf
    have := (hsent m hm).fits
    rw [Spec.Net.Fits, mate_mate] at this
    exact ⟨by simp [frameOf, Cfg.io], g.magic.isLt, (Msg.checksumOf g.e g.H _).isLt, this.2, this.1⟩
  have hg : ∀ f ∈ (s.log (mate i)).map (frameOf g), (ConnIO.rule (g.io i)).good f.checksum f.payload = true := by
    intro f hf
    obtain ⟨m, hm, rfl⟩ := List.mem_map.1 hf
    simp [ConnIO.rule, Cfg.io, frameOf]
  have hwr : ((s.log (mate i)).map (frameOf g)).flatMap Spec.Frame.enc = (s.conn (mate i)).written := by
    rw [hi.wr, List.flatMap_map]
  obtain ⟨evs, he⟩ := hi.hist i
  obtain ⟨evs', he'⟩ := hi.hist (mate i)
  have hs30 := C30_wire_bytes (g.io (mate i)) (ok _) (g.q (mate i)) g.m0 evs'
  rw [← he'] at hs30
  have hdel := ConnIO.deliver (g.io i) (ok i) (g.q i) g.m0 evs _ hv hg (by
    rw [← he, hwr]; exact (hi.arr i).trans hs30.2.1)
  rw [← he, hwr] at hdel
  have hF : ∀ x : Msg g.ow, F (ConnIO.view g.e x) = item i x := by
    intro x; simp [F, ConnIO.view, item, memDec_memEnc]
  have hT : ∀ m, F (frameOf g m) = itemOf g i m := by
    intro m; simp [F, frameOf, itemOf, memDec_memEnc]
  have hmapd : (ConnIO.frames (g.io i) (s.conn i)).map F = (s.conn i).delivered.map (item i) := by
    show (List.map (ConnIO.view g.e) (s.conn i).delivered).map F = _
    rw [List.map_map]
    exact List.map_congr_left fun x _ => hF x
  have hmapl : ((s.log (mate i)).map (frameOf g)).map F = (s.log (mate i)).map (itemOf g i) := by
    rw [List.map_map]
    exact List.map_congr_left fun x _ => hT x
  obtain ⟨ms, hms⟩ := hi.shape (g.node i)
  have hmsgs : Spec.Disp.msgs (s.disp (g.node i)).hist = ms := by
    rw [hms, Disp.msgs_append]
    have h1 : ∀ l : List (Nat × Disp.Handler), Spec.Disp.msgs (l.map fun x => .reg x.1 x.2) = [] := by
      intro l; induction l with
      | nil => rfl
      | cons x l ih => simpa [Spec.Disp.msgs] using ih
    have h2 : ∀ l : List Disp.Msg, Spec.Disp.msgs (l.map .msg) = l := by
      intro l; induction l with
      | nil => rfl
      | cons x l ih => simpa [Spec.Disp.msgs] using ih
    rw [h1, h2]; rfl
  have hcalls : (s.disp (g.node i)).calls = ms.filterMap (fun m => (Spec.Net.handlerOf (g.handlers (g.node i)) m.op).map fun h => (h, m)) := by
    have hd := (hi.dinv (g.node i)).del
    rw [hms] at hd
    have := del_regs _ _ hd
    exact del_msgs ms _ _ (fun op => by rw [List.nil_append]; exact lastReg_regs op _) this
  have hacc : (s.disp (g.node i)).ev.accepted = ms ++ (s.disp (g.node i)).ev.q := by
    have := (hi.dinv (g.node i)).ev.fifo
    rw [← (hi.dinv (g.node i)).seen, hmsgs] at this
    exact this
  have hflow := hi.flow i
  have hcall : ∀ l, ms.filter (fromEnd i) = l → (s.disp (g.node i)).calls.filter (fun x => decide (x.2.conn = i))
      = l.filterMap (fun m => (Spec.Net.handlerOf (g.handlers (g.node i)) m.op).map fun h => (h, m)) := by
    rintro l rfl
    rw [hcalls, List.filter_filterMap, List.filterMap_filter]
    congr 1
    funext m
    unfold fromEnd
    cases Spec.Net.handlerOf (g.handlers (g.node i)) m.op with
    | none => simp
    | some h => by_cases e : m.conn = i <;> simp [e]
  have hpre : ms.filter (fromEnd i) <+: (s.log (mate i)).map (itemOf g i) := by
    have h1 : ms.filter (fromEnd i) <+: (s.conn i).delivered.map (item i) := by
      rw [← hflow, hacc, List.filter_append, List.append_assoc, List.append_assoc]
      exact List.prefix_append _ _
    have h2 : (s.conn i).delivered.map (item i) <+: (s.log (mate i)).map (itemOf g i) := by
      rw [← hmapd, ← hmapl]
      exact hdel.1.map F
    exact h1.trans h2
  have htk : ms.filter (fromEnd i) = ((s.log (mate i)).take (ms.filter (fromEnd i)).length).map (itemOf g i) := by
    rw [List.map_take]
    exact List.prefix_iff_eq_take.1 hpre
  refine ⟨(s.log (mate i)).take (ms.filter (fromEnd i)).length, List.take_prefix _ _, fun m hm => hsent m (List.mem_of_mem_take hm), ?_, hcall _ htk⟩
  rintro ⟨d1, d2, d3, d4, d5, d6, d7, d8⟩
  obtain ⟨r1, r2⟩ := rest_all (hi.dinv (g.node i)) d8
  rw [hmsgs] at r1
  have hw : wait s i = [] := by
    unfold wait
    cases s.cur i with
    | none => rfl
    | some k => simp [r2]
  have hall : (s.conn i).arrived = (s.conn (mate i)).written := by
    rw [d2, ← hs30.1, d1]; simp
  have hfr := hdel.2 hall d3 d4 d5 d6
  have hms' : ms.filter (fromEnd i) = (s.log (mate i)).map (itemOf g i) := by
    rw [r1, ← hmapl, ← hfr, hmapd, ← hflow, hw, d7]
    simp
  rw [hms', List.length_map, List.take_length]

end Net
end Salticidae
