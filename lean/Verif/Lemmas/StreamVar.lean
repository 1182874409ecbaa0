import Verif.Spec.StreamVar
import Verif.Lemmas.Stream
/-
Helper lemmas for C103: simulation between stream variables and queues of bytes.
-/
namespace Salticidae.StreamVar
open DataStream
open Salticidae.Spec.StreamVar (Cell Env)

/-- The content of a variable agrees with its value in the specification. -/
def Fit : Option DataStream → Option Cell → Prop
  | none, none => True
  | some d, some .moved => d.buffer.length < 2 ^ 63
  | some d, some (.val r a b) => d.buffer.length < 2 ^ 63 ∧
      (b = false → d.offset ≤ d.buffer.length ∧ d.unread = r ∧ (a = false → d.offset = 0))
  | _, _ => False

/-- All variables agree. -/
def Rel (s : St) (t : Env) : Prop := ∀ x, Fit (s x) (t x)

theorem Rel.init : Rel (fun _ => none) (fun _ => none) := fun _ => trivial

theorem Rel.set {s : St} {t : Env} (h : Rel s t) {x : Nat} {d : Option DataStream} {c : Option Cell} (hf : Fit d c) :
    Rel (StreamVar.set s x d) (Spec.StreamVar.set t x c) := by
  intro z
  simp only [StreamVar.set, Spec.StreamVar.set]
  split
  · exact hf
  · exact h z

theorem Rel.absent {s : St} {t : Env} (h : Rel s t) {x : Nat} (hx : t x = none) : s x = none := by
  have := h x
  rw [hx] at this
  cases hs : s x with
  | none => rfl
  | some d => rw [hs] at this; exact this.elim

theorem Rel.present {s : St} {t : Env} (h : Rel s t) {x : Nat} {c : Cell} (hx : t x = some c) : ∃ d, s x = some d ∧ Fit (some d) (some c) := by
  have := h x
  rw [hx] at this
  cases hs : s x with
  | none => rw [hs] at this; exact this.elim
  | some d => rw [hs] at this; exact ⟨d, rfl, this⟩

theorem fit_len {d : DataStream} {c : Cell} (h : Fit (some d) (some c)) : d.buffer.length < 2 ^ 63 := by
  cases c with
  | moved => exact h
  | val r a b => exact h.1

theorem fit_moved {d : DataStream} (h : d.buffer.length < 2 ^ 63) : Fit (some d) (some .moved) := h

theorem fine_some {t : Env} {x : Nat} (h : Spec.StreamVar.fine t x = true) : ∃ r a, t x = some (.val r a false) := by
  unfold Spec.StreamVar.fine at h
  split at h
  · rename_i r a b hx
    cases b
    · exact ⟨r, a, hx⟩
    · cases h
  · cases h

/-- The content of a variable that is fine. -/
theorem Rel.useful {s : St} {t : Env} (h : Rel s t) {x : Nat} (hx : Spec.StreamVar.fine t x = true) :
    ∃ d r a, t x = some (.val r a false) ∧ s x = some d ∧ d.Wf ∧ d.unread = r ∧ (a = false → d.offset = 0) := by
  obtain ⟨r, a, hx⟩ := fine_some hx
  obtain ⟨d, hd, hf⟩ := h.present hx
  obtain ⟨h1, h2⟩ := hf
  obtain ⟨h3, h4, h5⟩ := h2 rfl
  exact ⟨d, r, a, hx, hd, ⟨h3, h1⟩, h4, h5⟩

/-- What has to be shown of a step. -/
def Good (m : R) (t : Env) (o : Out) : Prop :=
  match m with
  | .ok s o' => Rel s t ∧ o' = o
  | .never => True
  | .ub => False

theorem good_store {s : St} {t : Env} (h : Rel s t) {x : Nat} {d : DataStream} {c : Option Cell} {o : Out}
    (hf : d.buffer.length < 2 ^ 63 → Fit (some d) c) : Good (store s x d o) (Spec.StreamVar.set t x c) o := by
  unfold store
  split
  · rename_i hl
    exact ⟨h.set (hf hl), rfl⟩
  · trivial

theorem set_same (s : St) (x : Nat) : StreamVar.set s x (s x) = s := by
  funext z; simp only [StreamVar.set]; split
  · rename_i h; rw [h]
  · rfl

theorem fit_val {d : DataStream} {r : List Byte} {a : Bool} (hw : d.Wf) (hu : d.unread = r) (h0 : a = false → d.offset = 0) :
    Fit (some d) (some (.val r a false)) := ⟨hw.2, fun _ => ⟨hw.1, hu, h0⟩⟩

theorem fit_append {d : DataStream} {r bs : List Byte} {a : Bool} (hw : d.Wf) (hu : d.unread = r) (h0 : a = false → d.offset = 0)
    (hl : (d.buffer ++ bs).length < 2 ^ 63) : Fit (some { d with buffer := d.buffer ++ bs }) (some (.val (r ++ bs) a false)) := by
  refine ⟨hl, fun _ => ⟨?_, ?_, h0⟩⟩
  · have := hw.1; simp only [List.length_append]; omega
  · rw [← hu]; simp only [unread]; rw [List.drop_append_of_le_length hw.1]

theorem memEnc_ofInt (e : Endian) {w : Nat} (v : BitVec (8 * w)) : memEnc e v = Spec.StreamVar.ofInt e w v.toNat := by
  cases e <;> rfl

theorem memDec_intOf (e : Endian) {w : Nat} {bs : List Byte} (h : bs.length = w) : (memDec e w bs).toNat = Spec.StreamVar.intOf e bs := by
  subst h
  have hl := Spec.leDec_lt bs
  have hr := Spec.leDec_lt bs.reverse
  rw [List.length_reverse] at hr
  cases e
  · simp only [memDec, Spec.StreamVar.intOf, BitVec.toNat_ofNat]
    rw [Nat.mod_eq_of_lt (by rw [← Spec.pow_256]; exact hl)]
  · simp only [memDec, Spec.StreamVar.intOf, BitVec.toNat_ofNat]
    rw [Nat.mod_eq_of_lt (by rw [← Spec.pow_256]; exact hr)]

theorem getBlock_short {d : DataStream} (h : d.Wf) {n : Nat} (hn : n < 2 ^ 62) (hl : d.unread.length < n) :
    ∃ d', d.getBlock n = .throw d' ∧ d'.buffer = d.buffer := by
  obtain ⟨h1, h2⟩ := h
  rw [unread_length] at hl
  have hm : (d.offset + n) % sizeMod = d.offset + n := Nat.mod_eq_of_lt (by unfold sizeMod; omega)
  refine ⟨{ d with offset := d.offset + n }, ?_, rfl⟩
  simp only [getBlock, getDataInplace, hm]
  rw [if_pos (by omega)]

theorem loadHex_ok (lax : Bool) (d : DataStream) {txt : List Char} {bs : List Byte} (h : Spec.hexDecode txt = some bs) :
    d.loadHex lax txt = .ok ⟨bs, 0⟩ () := by
  obtain ⟨h1, h2⟩ := loadHexLoop_hex lax txt _ h
  simp only [loadHex, h1, h2]
  rw [if_neg (by omega), if_pos trivial]
  simp only [Res.ok.injEq, DataStream.mk.injEq, and_true]
  rw [List.drop_of_length_le (by simp; omega)]
  simp

/-- One statement of a careful program. -/
theorem step_good (g : Cfg) {s : St} {t t' : Env} {o : Out} (h : Rel s t) (op : Op)
    (hc : Spec.StreamVar.careful t op = true) (hs : Spec.StreamVar.step g t op = some (t', o)) : Good (step g s op) t' o := by
  cases op with
  | new x =>
    simp only [Spec.StreamVar.step] at hs
    split at hs
    · rename_i hx
      simp only [Option.some.injEq, Prod.mk.injEq] at hs
      obtain ⟨rfl, rfl⟩ := hs
      simp only [step, h.absent hx]
      exact ⟨h.set ⟨by decide, fun _ => ⟨by decide, rfl, fun _ => rfl⟩⟩, rfl⟩
    · cases hs
  | bytes x bs =>
    simp only [Spec.StreamVar.step] at hs
    split at hs
    · rename_i hx
      simp only [Option.some.injEq, Prod.mk.injEq] at hs
      obtain ⟨rfl, rfl⟩ := hs
      simp only [step, h.absent hx]
      exact good_store h fun hl => ⟨hl, fun _ => ⟨Nat.zero_le _, rfl, fun _ => rfl⟩⟩
    · cases hs
  | copy x y =>
    obtain ⟨d, r, a, hy, hd, hw, hu, h0⟩ := h.useful hc
    simp only [Spec.StreamVar.step, hy] at hs
    split at hs
    · rename_i hx he
      simp only [Option.some.injEq, Prod.mk.injEq] at hs
      obtain ⟨rfl, rfl⟩ := hs
      simp only [Option.some.injEq, Cell.val.injEq] at he
      obtain ⟨rfl, rfl, rfl⟩ := he
      simp only [step, h.absent hx, hd]
      exact ⟨h.set (fit_val hw hu h0), rfl⟩
    · cases hs
  | move x y =>
    obtain ⟨d, r, a, hy, hd, hw, hu, h0⟩ := h.useful hc
    simp only [Spec.StreamVar.step, hy] at hs
    split at hs
    · rename_i hx he
      simp only [Option.some.injEq, Prod.mk.injEq] at hs
      obtain ⟨rfl, rfl⟩ := hs
      simp only [Option.some.injEq, Cell.val.injEq] at he
      obtain ⟨rfl, rfl, rfl⟩ := he
      simp only [step, h.absent hx, hd]
      exact ⟨(h.set (fit_moved (by simp [husk]))).set (fit_val hw hu h0), rfl⟩
    · cases hs
  | assign x y =>
    obtain ⟨d, r, a, hy, hd, hw, hu, h0⟩ := h.useful hc
    simp only [Spec.StreamVar.step, hy] at hs
    split at hs
    · rename_i c hx he
      simp only [Option.some.injEq, Prod.mk.injEq] at hs
      obtain ⟨rfl, rfl⟩ := hs
      simp only [Option.some.injEq, Cell.val.injEq] at he
      obtain ⟨rfl, rfl, rfl⟩ := he
      obtain ⟨d', hd', _⟩ := h.present hx
      simp only [step, hd', hd]
      have := h.set (x := x) (fit_val hw hu h0)
      split
      · rename_i hxy
        subst hxy
        rw [← hd, set_same] at this
        exact ⟨this, rfl⟩
      · exact ⟨this, rfl⟩
    · cases hs
  | moveAssign x y =>
    obtain ⟨d, r, a, hy, hd, hw, hu, h0⟩ := h.useful hc
    simp only [Spec.StreamVar.step, hy] at hs
    split at hs
    · rename_i c hx he
      simp only [Option.some.injEq, Cell.val.injEq] at he
      obtain ⟨rfl, rfl, rfl⟩ := he
      obtain ⟨d', hd', _⟩ := h.present hx
      simp only [step, hd', hd]
      split
      · rename_i hxy
        rw [if_pos hxy] at hs
        simp only [Option.some.injEq, Prod.mk.injEq] at hs
        obtain ⟨rfl, rfl⟩ := hs
        exact ⟨h, rfl⟩
      · rename_i hxy
        rw [if_neg hxy] at hs
        simp only [Option.some.injEq, Prod.mk.injEq] at hs
        obtain ⟨rfl, rfl⟩ := hs
        exact ⟨(h.set (fit_moved (by simp [husk]))).set (fit_val hw hu h0), rfl⟩
    · cases hs
  | swap x y =>
    simp only [Spec.StreamVar.step] at hs
    split at hs
    · rename_i c c' hx hy
      simp only [Option.some.injEq, Prod.mk.injEq] at hs
      obtain ⟨rfl, rfl⟩ := hs
      obtain ⟨d, hd, hf⟩ := h.present hx
      obtain ⟨d', hd', hf'⟩ := h.present hy
      simp only [step, hd, hd']
      exact ⟨(h.set hf').set hf, rfl⟩
    · cases hs
  | destroy x =>
    simp only [Spec.StreamVar.step] at hs
    split at hs
    · rename_i c hx
      simp only [Option.some.injEq, Prod.mk.injEq] at hs
      obtain ⟨rfl, rfl⟩ := hs
      obtain ⟨d, hd, hf⟩ := h.present hx
      simp only [step, hd]
      exact ⟨h.set trivial, rfl⟩
    · cases hs
  | clear x =>
    simp only [Spec.StreamVar.step] at hs
    split at hs
    · rename_i c hx
      simp only [Option.some.injEq, Prod.mk.injEq] at hs
      obtain ⟨rfl, rfl⟩ := hs
      obtain ⟨d, hd, hf⟩ := h.present hx
      simp only [step, hd]
      exact ⟨h.set ⟨by simp [DataStream.clear], fun _ => ⟨by simp [DataStream.clear], rfl, fun _ => rfl⟩⟩, rfl⟩
    · cases hs
  | putInt x w v =>
    obtain ⟨d, r, a, hx, hd, hw, hu, h0⟩ := h.useful hc
    simp only [Spec.StreamVar.step, Spec.StreamVar.on, hx, Option.some.injEq, Prod.mk.injEq] at hs
    obtain ⟨rfl, rfl⟩ := hs
    simp only [step, hd, putInt, memEnc_ofInt]
    exact good_store h fun hl => fit_append hw hu h0 hl
  | put x bs =>
    obtain ⟨d, r, a, hx, hd, hw, hu, h0⟩ := h.useful hc
    simp only [Spec.StreamVar.step, Spec.StreamVar.on, hx, Option.some.injEq, Prod.mk.injEq] at hs
    obtain ⟨rfl, rfl⟩ := hs
    simp only [step, hd, putData]
    exact good_store h fun hl => fit_append hw hu h0 hl
  | putFrom x y n grown =>
    simp only [Spec.StreamVar.careful, Bool.and_eq_true] at hc
    obtain ⟨⟨hcx, hcy⟩, hxy⟩ := hc
    obtain ⟨d, r, a, hx, hd, hw, hu, h0⟩ := h.useful hcx
    obtain ⟨d', r', a', hy, hd', hw', hu', h0'⟩ := h.useful hcy
    simp only [Spec.StreamVar.step, hy, Spec.StreamVar.on, hx] at hs
    split at hs
    · rename_i hn
      simp only [Option.some.injEq, Prod.mk.injEq] at hs
      obtain ⟨rfl, rfl⟩ := hs
      simp only [step, hd, hd']
      have hl : d'.offset + n ≤ d'.buffer.length := by
        have h1 := unread_length d'
        have h2 := hw'.1
        rw [hu'] at h1; omega
      rw [if_pos hl, if_neg]
      · have : (d'.buffer.drop d'.offset).take n = r'.take n := by rw [← hu']; rfl
        rw [this]
        exact good_store h fun hl => fit_append hw hu h0 hl
      · rintro ⟨rfl, hp, _⟩
        simp only [bne_self_eq_false, Bool.false_or, beq_iff_eq] at hxy
        omega
    · cases hs
  | getInt x w =>
    simp only [Spec.StreamVar.careful, Bool.and_eq_true, decide_eq_true_eq] at hc
    obtain ⟨d, r, a, hx, hd, hw, hu, h0⟩ := h.useful hc.1
    simp only [Spec.StreamVar.step, Spec.StreamVar.on, hx, Option.some.injEq, Prod.mk.injEq] at hs
    obtain ⟨rfl, rfl⟩ := hs
    simp only [step, hd]
    split
    · rename_i hl
      rw [← hu] at hl
      rw [getInt_ok hw hl]
      simp only [finish]
      rw [memDec_intOf _ (by simp; omega), hu]
      exact good_store h fun _ => fit_val (wf_advance hw hl) (by rw [unread_advance, hu]) (by simp)
    · rename_i hl
      rw [← hu] at hl
      rw [getInt_short hw (by omega) (by omega)]
      exact good_store h fun _ => fit_val hw hu h0
  | getBlock x n =>
    simp only [Spec.StreamVar.careful, Bool.and_eq_true, decide_eq_true_eq] at hc
    obtain ⟨d, r, a, hx, hd, hw, hu, h0⟩ := h.useful hc.1
    simp only [Spec.StreamVar.step, Spec.StreamVar.on, hx, Option.some.injEq, Prod.mk.injEq] at hs
    obtain ⟨rfl, rfl⟩ := hs
    simp only [step, hd]
    split
    · rename_i hl
      rw [← hu] at hl
      rw [getBlock_ok hw hl]
      simp only [finish]
      rw [hu]
      exact good_store h fun _ => fit_val (wf_advance hw hl) (by rw [unread_advance, hu]) (by simp)
    · rename_i hl
      rw [← hu] at hl
      obtain ⟨d', h1, h2⟩ := getBlock_short hw hc.2 (by omega)
      rw [h1]
      exact good_store h fun hl => ⟨hl, by simp⟩
  | size x =>
    obtain ⟨d, r, a, hx, hd, hw, hu, h0⟩ := h.useful hc
    simp only [Spec.StreamVar.step, Spec.StreamVar.on, hx, Option.some.injEq, Prod.mk.injEq] at hs
    obtain ⟨rfl, rfl⟩ := hs
    simp only [step, hd]
    have := h.set (x := x) (fit_val hw hu h0)
    rw [← hd, set_same] at this
    exact ⟨this, by rw [size_eq hw, hu]⟩
  | toBytes x =>
    obtain ⟨d, r, a, hx, hd, hw, hu, h0⟩ := h.useful hc
    simp only [Spec.StreamVar.step, Spec.StreamVar.on, hx, Option.some.injEq, Prod.mk.injEq] at hs
    obtain ⟨rfl, rfl⟩ := hs
    simp only [step, hd, toBytesLvalue, if_pos hw.1, finish]
    rw [show d.buffer.drop d.offset = r from hu]
    exact good_store h fun _ => fit_val hw hu h0
  | takeBytes x =>
    simp only [Spec.StreamVar.careful, Bool.and_eq_true] at hc
    obtain ⟨d, r, a, hx, hd, hw, hu, h0⟩ := h.useful hc.1
    have ha : a = false := by
      have := hc.2
      simp only [Spec.StreamVar.fresh, hx] at this
      simpa using this
    simp only [Spec.StreamVar.step, Spec.StreamVar.on, hx, Option.some.injEq, Prod.mk.injEq] at hs
    obtain ⟨rfl, rfl⟩ := hs
    simp only [step, hd, toBytesRvalue, finish]
    have : d.buffer = r := by
      rw [← hu, unread, h0 ha]; rfl
    rw [this]
    exact good_store h fun _ => fit_val hw hu h0
  | getHex x =>
    obtain ⟨d, r, a, hx, hd, hw, hu, h0⟩ := h.useful hc
    simp only [Spec.StreamVar.step, Spec.StreamVar.on, hx, Option.some.injEq, Prod.mk.injEq] at hs
    obtain ⟨rfl, rfl⟩ := hs
    simp only [step, hd, getHex, if_pos hw.1, finish]
    rw [show d.buffer.drop d.offset = r from hu]
    exact good_store h fun _ => fit_val hw hu h0
  | loadHex x txt =>
    simp only [Spec.StreamVar.careful, Option.isSome_iff_exists] at hc
    obtain ⟨bs, hb⟩ := hc
    simp only [Spec.StreamVar.step, hb] at hs
    split at hs
    · rename_i c bs' hx he
      simp only [Option.some.injEq, Prod.mk.injEq] at hs he
      obtain ⟨rfl, rfl⟩ := hs
      subst he
      obtain ⟨d, hd, hf⟩ := h.present hx
      simp only [step, hd, loadHex_ok _ _ hb, finish]
      exact good_store h fun hl => ⟨hl, fun _ => ⟨Nat.zero_le _, rfl, fun _ => rfl⟩⟩
    · rename_i he; cases he
    · cases hs
  | hash x =>
    obtain ⟨d, r, a, hx, hd, hw, hu, h0⟩ := h.useful hc
    simp only [Spec.StreamVar.step, Spec.StreamVar.on, hx, Option.some.injEq, Prod.mk.injEq] at hs
    obtain ⟨rfl, rfl⟩ := hs
    have hz := size_eq hw
    have hl := unread_length d
    have h1 := hw.1
    simp only [step, hd, getHash]
    rw [if_pos (by omega)]
    simp only [finish]
    rw [List.take_of_length_le (by rw [← unread]; omega), show d.buffer.drop d.offset = r from hu]
    exact good_store h fun _ => fit_val hw hu h0

/-- A careful program: all outputs are right, and it runs to its end unless a vector gets too long. -/
theorem run_good (g : Cfg) (ops : List Op) {s : St} {t : Env} (h : Rel s t) {os : List Out}
    (hf : Spec.StreamVar.follow g Spec.StreamVar.careful t ops = some os) :
    run g s ops = .done os ∨ ∃ pre, run g s ops = .never pre ∧ pre <+: os := by
  induction ops generalizing s t os with
  | nil =>
    simp only [Spec.StreamVar.follow, Option.some.injEq] at hf
    subst hf
    exact .inl rfl
  | cons op ops ih =>
    simp only [Spec.StreamVar.follow] at hf
    split at hf
    · rename_i hc
      split at hf
      · rename_i t' o hs
        obtain ⟨os', ho, rfl⟩ := Option.map_eq_some_iff.1 hf
        have := step_good g h op hc hs
        simp only [run]
        cases hm : step g s op with
        | ub => rw [hm] at this; exact this.elim
        | never => exact .inr ⟨[], rfl, List.nil_prefix⟩
        | ok s' o' =>
          rw [hm] at this
          obtain ⟨hr, rfl⟩ := this
          rcases ih hr ho with h1 | ⟨pre, h1, h2⟩
          · exact .inl (by simp only [h1, Run.after])
          · exact .inr ⟨o' :: pre, by simp only [h1, Run.after], List.cons_prefix_cons.2 ⟨rfl, h2⟩⟩
      · cases hf
    · cases hf

end Salticidae.StreamVar
