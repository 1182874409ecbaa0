import Verif.Model.OptInt
import Verif.Spec.OptInt
import Verif.Lemmas.NetAddr
/-!
C133: integer options.
-/
namespace Salticidae
open OptInt Spec.OptInt
open Util (Str)
open Conf (Err Env Config Opt)

theorem OptInt.strtol_iff (t : Str) (h0 : '\x00' ∉ t) (n : Int) : (∃ i, strtol t = some (n, i)) ↔ Begins t n := by
  have hc : cStr t = t := cStr_eq t h0
  have hsplit := List.takeWhile_append_dropWhile (p := DataStream.isCSpace) (l := t)
  have hneg : ∀ c, isDigit c = false ↔ c ∉ Spec.digits := fun c => by rw [← digit_iff]; simp
  constructor
  · rintro ⟨i, h⟩
    simp only [strtol, hc] at h
    have hws : ∀ c ∈ t.takeWhile DataStream.isCSpace, DataStream.isCSpace c = true :=
      fun c hc' => List.all_eq_true.mp List.all_takeWhile c hc'
    obtain ⟨sign, hv, hs⟩ := stripSign_spec (t.dropWhile DataStream.isCSpace)
    generalize stripSign (t.dropWhile DataStream.isCSpace) = st at h hv hs
    obtain ⟨neg, u⟩ := st
    simp only at h hv hs
    split at h
    · cases h
    · rename_i hne
      simp only [Option.some.injEq, Prod.mk.injEq] at h
      have hdg : ∀ c ∈ u.takeWhile isDigit, c ∈ Spec.digits := fun c hc' => (digit_iff c).1 (List.all_eq_true.mp List.all_takeWhile c hc')
      rw [decValue_eq hdg] at h
      refine ⟨t.takeWhile DataStream.isCSpace, sign, u.takeWhile isDigit, u.dropWhile isDigit, ?_, fun c hc' => (space_iff c).1 (hws c hc'), hne, hdg, ?_, ?_⟩
      · rw [List.append_assoc, List.takeWhile_append_dropWhile, List.append_assoc, ← hv, hsplit]
      · intro c hc'
        have := List.head?_dropWhile_not isDigit u
        rw [hc'] at this
        exact (hneg c).1 (by simpa using this)
      · rcases hs with ⟨h1, h2⟩ | ⟨h1, h2⟩ | ⟨h1, h2⟩ <;> subst h2 <;> simp at h
        · exact .inl ⟨h1, h.1.symm⟩
        · exact .inr (.inl ⟨h1, h.1.symm⟩)
        · exact .inr (.inr ⟨h1, h.1.symm⟩)
  · intro ⟨ws, sign, digits, rest, ht, hws, hne, hdig', hrest', hsign⟩
    have hws : ∀ c ∈ ws, DataStream.isCSpace c = true := fun c h => (space_iff c).2 (hws c h)
    have hdig : ∀ c ∈ digits, isDigit c = true := fun c h => (digit_iff c).2 (hdig' c h)
    have hrest : ∀ c, rest.head? = some c → isDigit c = false := fun c h => (hneg c).2 (hrest' c h)
    obtain ⟨d0, ds, hd⟩ := List.exists_cons_of_ne_nil hne
    have hd0 : isDigit d0 = true := hdig d0 (by rw [hd]; simp)
    have htake : (digits ++ rest).takeWhile isDigit = digits := by
      rw [List.takeWhile_append_of_pos hdig]
      cases rest with
      | nil => simp
      | cons r rest => rw [List.takeWhile_cons_of_neg (by simp [hrest r rfl])]; simp
    have hdrop : t.dropWhile DataStream.isCSpace = sign ++ digits ++ rest := by
      rw [ht, List.append_assoc, List.append_assoc, List.dropWhile_append_of_pos hws]
      rw [← List.append_assoc]
      apply dropWhile_eq_of_head
      intro c hc'
      rcases hsign with h | h | h
      · rw [h.1, hd] at hc'; simp only [List.nil_append, List.cons_append, List.head?_cons,
          Option.some.injEq] at hc'; subst hc'; exact isDigit_not_space hd0
      · rw [h.1] at hc'; simp only [List.cons_append, List.head?_cons, Option.some.injEq] at hc'
        subst hc'; decide
      · rw [h.1] at hc'; simp only [List.cons_append, List.head?_cons, Option.some.injEq] at hc'
        subst hc'; decide
    simp only [strtol, hc, hdrop]
    rcases hsign with h | h | h
    · obtain ⟨rfl, hn⟩ := h
      have hm : stripSign ([] ++ digits ++ rest) = (false, digits ++ rest) := by
        have h1 : d0 ≠ '-' := by intro h; subst h; exact absurd hd0 (by decide)
        have h2 : d0 ≠ '+' := by intro h; subst h; exact absurd hd0 (by decide)
        rw [hd]; simp [stripSign, h1, h2]
      simp only [hm, htake, hne, if_false, decValue_eq hdig', Bool.false_eq_true]
      exact ⟨_, by rw [← hn]⟩
    · obtain ⟨rfl, hn⟩ := h
      have hm : stripSign (['+'] ++ digits ++ rest) = (false, digits ++ rest) := by simp [stripSign]
      simp only [hm, htake, hne, if_false, decValue_eq hdig', Bool.false_eq_true]
      exact ⟨_, by rw [← hn]⟩
    · obtain ⟨rfl, hn⟩ := h
      have hm : stripSign (['-'] ++ digits ++ rest) = (true, digits ++ rest) := by simp [stripSign]
      simp only [hm, htake, hne, if_false, if_true, decValue_eq hdig']
      exact ⟨_, by rw [← hn]⟩

/-- C133, in full: an integer option takes the decimal numerals of the values of an int, with that value, and rejects every other text with the error for invalid values. -/
def C133_statement : Prop :=
  ∀ (s : Str), '\x00' ∉ s → (∀ n, setVal s = .ok n ↔ Numeral s n ∧ InRange n) ∧ ((¬ ∃ n, Numeral s n ∧ InRange n) → setVal s = .error .optvalInvalid)

/-- "80x" is taken for 80: where the number ended is asked for, and not looked at. -/
theorem C133_violated : ¬ C133_statement := by
  intro h
  obtain ⟨ds, _, hd, h1 | h1⟩ := (((h "80x".toList (by decide)).1 80).1 rfl).1
  · obtain ⟨rfl, _⟩ := h1
    exact absurd (hd 'x' (by decide)) (by decide)
  · exact absurd (congrArg List.head? h1.1) (by simp)

/-- A number that is too large ends in an exception of the C++ library, which is no SalticidaeError. -/
theorem C133_violated_range : ∃ s, Numeral s 2147483648 ∧ setVal s = .error .outOfRange :=
  ⟨"2147483648".toList, ⟨_, by decide, by decide, .inl ⟨rfl, by decide⟩⟩, rfl⟩

/-- What is taken, precisely: texts that have a numeral at their beginning, after white space; out of range: the C++ library's exception; no numeral there: the error for invalid values. -/
theorem C133_accepts_partial (s : Str) (h0 : '\x00' ∉ s) :
    (∀ n, setVal s = .ok n ↔ Begins s n ∧ InRange n) ∧
    (setVal s = .error .outOfRange ↔ ∃ n, Begins s n ∧ ¬ InRange n) ∧
    (setVal s = .error .optvalInvalid ↔ ¬ ∃ n, Begins s n) := by
  have key := OptInt.strtol_iff s h0
  cases hx : strtol s with
  | none =>
    have hn : ∀ n, ¬ Begins s n := fun n hb => by
      obtain ⟨i, hi⟩ := (key n).2 hb
      rw [hx] at hi; cases hi
    simp [setVal, stoi, hx, hn]
  | some p =>
    obtain ⟨v, i⟩ := p
    have hb : ∀ n, Begins s n ↔ v = n := by
      intro n
      rw [← key n, hx]
      simp
    by_cases hr : v < - 2 ^ 31 ∨ v ≥ 2 ^ 31
    · have hn : ¬ InRange v := by simp only [InRange]; omega
      simp only [setVal, stoi, hx, if_pos hr, hb]
      refine ⟨fun n => ⟨fun h => (by cases h), fun h => (by obtain ⟨rfl, h⟩ := h; exact absurd h hn)⟩, ⟨fun _ => ⟨v, rfl, hn⟩, fun _ => trivial⟩, ⟨fun h => (by cases h), fun h => absurd ⟨v, rfl⟩ h⟩⟩
    · have hn : InRange v := by simp only [InRange]; omega
      simp only [setVal, stoi, hx, if_neg hr, hb]
      refine ⟨fun n => ⟨fun h => (by cases h; exact ⟨rfl, hn⟩), fun h => by rw [h.1]⟩,
        ⟨fun h => (by cases h), fun ⟨n, h1, h2⟩ => absurd (h1 ▸ hn) h2⟩, ⟨fun h => (by cases h), fun h => absurd ⟨v, rfl⟩ h⟩⟩

/-- So every value of an int that a program prints is read back, … -/
theorem C133_roundtrip (n : Int) (h : InRange n) : setVal (text n) = .ok n := by
  have hd : ∀ c ∈ Nat.toDigits 10 n.natAbs, c ∈ Spec.digits := by
    intro c hc
    have := Nat.isDigit_of_mem_toDigits (by decide) (by decide) hc
    rw [← digit_iff]
    simp only [Char.isDigit, Bool.and_eq_true, decide_eq_true_eq, ge_iff_le, UInt32.le_iff_toNat_le] at this
    simp only [isDigit, Bool.and_eq_true, decide_eq_true_eq]
    exact this
  have hv : Spec.decimal (Nat.toDigits 10 n.natAbs) = n.natAbs := by
    rw [← decValue_eq hd]
    exact Nat.ofDigitChars_ten_toDigits
  have h0 : '\x00' ∉ text n := by
    intro hm
    simp only [text] at hm
    split at hm
    · rcases List.mem_cons.1 hm with hm | hm
      · exact absurd hm (by decide)
      · exact absurd (hd _ hm) (by decide)
    · exact absurd (hd _ hm) (by decide)
  refine ((C133_accepts_partial _ h0).1 n).2 ⟨?_, h⟩
  by_cases hn : n < 0
  · exact ⟨[], ['-'], Nat.toDigits 10 n.natAbs, [], by simp [text, hn], by simp, Nat.toDigits_ne_nil, hd, by simp, .inr (.inr ⟨rfl, by rw [hv]; omega⟩)⟩
  · exact ⟨[], [], Nat.toDigits 10 n.natAbs, [], by simp [text, hn], by simp, Nat.toDigits_ne_nil, hd, by simp, .inl ⟨rfl, by rw [hv]; omega⟩⟩

/-- … every numeral in range is taken with its value (leading zeros included), … -/
theorem C133_numerals (s : Str) (n : Int) (hs : Numeral s n) (h : InRange n) : setVal s = .ok n := by
  obtain ⟨ds, hne, hd, hx⟩ := hs
  have hz : '\x00' ∉ ds := fun hm => absurd (hd _ hm) (by decide)
  have h0 : '\x00' ∉ s := by
    rcases hx with ⟨rfl, _⟩ | ⟨rfl, _⟩
    · exact hz
    · intro hm
      rcases List.mem_cons.1 hm with hm | hm
      · exact absurd hm (by decide)
      · exact hz hm
  refine ((C133_accepts_partial _ h0).1 n).2 ⟨?_, h⟩
  rcases hx with ⟨rfl, hv⟩ | ⟨rfl, hv⟩
  · exact ⟨[], [], s, [], by simp, by simp, hne, hd, by simp, .inl ⟨rfl, hv⟩⟩
  · exact ⟨[], ['-'], ds, [], by simp, by simp, hne, hd, by simp, .inr (.inr ⟨rfl, hv⟩)⟩

/-- … and an option of a configuration is set so: to the number, or the exception is passed on. -/
theorem C133_option {D : Type} (env : Env D) (he : env.stoi = setVal) (ld : Config D → Str → Conf.Res (Config D)) (c : Config D) (i : Nat) (o : Opt D) (old : Int)
    (ho : c.opts[i]? = some o) (ha : o.action = .setVal) (hv : o.val = .int old) (n : Int) (h : InRange n) :
    ∃ c', Conf.update env ld c i (text n) = .ok c' ∧ c'.opts[i]? = some { o with val := .int n } ∧ ∀ j, j ≠ i → c'.opts[j]? = c.opts[j]? := by
  refine ⟨c.set i o (.int n), by simp [Conf.update, ho, ha, hv, he, C133_roundtrip n h], ?_, fun j hj => ?_⟩
  · simp only [Config.set, List.getElem?_set_self' , ho]
    rfl
  · simp only [Config.set]
    rw [List.getElem?_set_ne (fun e => hj e.symm)]

example : setVal "-2147483648".toList = .ok (-2147483648) ∧ setVal " +7".toList = .ok 7 ∧ setVal "".toList = .error .optvalInvalid ∧ setVal "x1".toList = .error .optvalInvalid ∧
    setVal "0x10".toList = .ok 0 ∧ setVal "007".toList = .ok 7 := ⟨rfl, rfl, rfl, rfl, rfl, rfl⟩

example : text (-120) = "-120".toList ∧ InRange (-120) := by constructor <;> simp [InRange] <;> decide

end Salticidae
