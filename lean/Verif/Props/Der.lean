import Verif.Spec.Der
/-!
C130: keys and certificates as bytes.
-/
namespace Salticidae
open Der Spec.Der

/-- From bytes one gets an object exactly when they are the bytes of it, and otherwise an exception. -/
def C130_statement : Prop :=
  ∀ (K : Type) (c : Codec K), Lawful c → Remembers c → ∀ (bs : Bytes), create c bs ≠ .ub ∧ ∀ k, create c bs = .ok k ↔ get c k = .ok bs

/-- Objects with their length in front. -/
def Der.toy : Codec Bytes where
  i2d k := some (k.length :: k)
  d2i bs := match bs with
    | [] => none
    | n :: rest => if n ≤ rest.length then some (rest.take n, n + 1) else none

theorem Der.toy_lawful : Lawful toy where
  reads k bs rest h := by
    cases h
    refine ⟨by simp, ?_⟩
    simp [toy]
  within bs k n h := by
    cases bs with
    | nil => simp [toy] at h
    | cons m rest =>
      simp only [toy] at h
      split at h
      · simp only [Option.some.injEq, Prod.mk.injEq] at h
        simp only [List.length_cons]
        omega
      · cases h

theorem Der.toy_remembers : Remembers toy := by
  intro bs k n h
  cases bs with
  | nil => simp [toy] at h
  | cons m rest =>
    simp only [toy] at h
    split at h
    · rename_i hm
      simp only [Option.some.injEq, Prod.mk.injEq] at h
      obtain ⟨rfl, rfl⟩ := h
      simp [toy, Nat.min_eq_left hm]
    · cases h

/-- An empty byte array is undefined behaviour, … -/
theorem C130_violated : ¬ C130_statement := fun h => (h Bytes toy toy_lawful toy_remembers []).1 rfl

/-- … whatever OpenSSL does; … -/
theorem C130_violated_empty {K : Type} (c : Codec K) : create c [] = .ub := rfl

/-- … and whatever follows the bytes of an object is ignored: so that many byte arrays are one certificate. -/
theorem C130_violated_trailing {K : Type} {c : Codec K} (hc : Lawful c) {k : K} {bs : Bytes} (h : get c k = .ok bs) (rest : Bytes) : create c (bs ++ rest) = .ok k := by
  have h1 : c.i2d k = some bs := by
    simp only [Der.get] at h
    split at h
    · cases h
    · rename_i b hb
      split at h
      · cases h
      · cases h; exact hb
  obtain ⟨h2, h3⟩ := hc.reads k bs rest h1
  cases bs with
  | nil => exact absurd rfl h2
  | cons b l => simp only [List.cons_append] at h3; simp only [create, List.cons_append, h3]

/-- What holds: from the bytes of an object one gets the object, … -/
theorem C130_roundtrip {K : Type} {c : Codec K} (hc : Lawful c) {k : K} {bs : Bytes} (h : get c k = .ok bs) : create c bs = .ok k := by
  have := C130_violated_trailing hc h []
  rwa [List.append_nil] at this

/-- … so that two objects with the same bytes are the same; … -/
theorem C130_injective {K : Type} {c : Codec K} (hc : Lawful c) {k k' : K} {bs : Bytes} (h : get c k = .ok bs) (h' : get c k' = .ok bs) : k = k' := by
  have h1 := C130_roundtrip hc h
  rw [C130_roundtrip hc h'] at h1
  cases h1; rfl

/-- … and a certificate that one gets from bytes has bytes with which they begin: it is the one object that they begin with, and nothing is undefined unless there are none. -/
theorem C130_prefix_partial {K : Type} {c : Codec K} (hc : Lawful c) (hr : Remembers c) (bs : Bytes) (hb : bs ≠ []) :
    create c bs ≠ .ub ∧ ∀ k, create c bs = .ok k ↔ ∃ own rest, get c k = .ok own ∧ bs = own ++ rest := by
  refine ⟨?_, fun k => ⟨fun h => ?_, ?_⟩⟩
  · cases bs with
    | nil => exact absurd rfl hb
    | cons b l => simp only [create]; split <;> simp
  · cases bs with
    | nil => cases h
    | cons b l =>
      simp only [create] at h
      split at h
      · cases h
      · rename_i k' n hk
        cases h
        have h1 := hr _ _ _ hk
        have h2 := hc.within _ _ _ hk
        refine ⟨(b :: l).take n, (b :: l).drop n, ?_, (List.take_append_drop _ _).symm⟩
        have h3 : ((b :: l).take n).length ≠ 0 := by rw [List.length_take]; omega
        simp only [Der.get, h1, h3, if_false]
  · rintro ⟨own, rest, h, rfl⟩
    exact C130_violated_trailing hc h rest

example : get toy [5, 6] = .ok [2, 5, 6] ∧ create toy [2, 5, 6] = .ok [5, 6] ∧ create toy [2, 5, 6, 9] = .ok [5, 6] ∧ create toy [2, 5] = .thrown := by decide

end Salticidae
