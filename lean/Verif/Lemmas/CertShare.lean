import Verif.Model.CertShare
import Verif.Spec.CertShare
/-!
C114: one certificate for several networks.
-/
namespace Salticidae
open CertShare Spec.CertShare

/-- What the one thread that executes a call has added to the count. -/
def CertShare.extra : Pc → Nat
  | .use _ => 1
  | .dec (.listen _) | .dec' (.listen _) _ => 1
  | _ => 0

/-- A thread that is where it can be. -/
def CertShare.Fits (cnt : Nat) (held : List Nat) : Pc → Prop
  | .idle => True
  | .inc o => o.ok held = true ∧ ∀ h, o ≠ .drop h
  | .inc' o r => o.ok held = true ∧ (∀ h, o ≠ .drop h) ∧ r = cnt
  | .use o => o.ok held = true ∧ ∀ h, o ≠ .drop h
  | .dec o => o.ok held = true ∧ ∀ s d, o ≠ .copy s d
  | .dec' o r => o.ok held = true ∧ (∀ s d, o ≠ .copy s d) ∧ r = cnt

structure CertShare.Inv (n : Nat) (s : St) (j : Nat) : Prop where
  far : ∀ k, n ≤ k → s.th k = .idle
  idle : ∀ k, k ≠ j → s.th k = .idle
  cnt : s.cnt = s.held.length + extra (s.th j)
  nodup : s.held.Nodup
  live : s.live = !s.held.isEmpty
  dead : s.dead = if s.held = [] then 1 else 0
  fits : Fits s.cnt s.held (s.th j)
  bad : s.bad = false

theorem CertShare.ok_ne {o : Op} {l : List Nat} (h : o.ok l = true) : l ≠ [] := by
  intro e; subst e; cases o <;> simp [Op.ok] at h

theorem CertShare.filter_len {l : List Nat} (hn : l.Nodup) {h : Nat} (hm : h ∈ l) : (l.filter (· != h)).length + 1 = l.length := by
  induction l with
  | nil => cases hm
  | cons a l ih =>
    simp only [List.nodup_cons] at hn
    by_cases e : a = h
    · subst e
      have : l.filter (· != a) = l := by
        rw [List.filter_eq_self]
        intro x hx
        simp only [bne_iff_ne]
        intro e; subst e; exact hn.1 hx
      simp [this]
    · have hm' : h ∈ l := by
        rcases List.mem_cons.mp hm with e' | e'
        · exact absurd e'.symm e
        · exact e'
      have := ih hn.2 hm'
      simp [e, this]

theorem CertShare.inv_step {n : Nat} {s t : St} {a : Act} {j : Nat} (i : Inv n s j) (h : step n s a = some t)
    (hq : ∀ k o, a = .call k o → ∀ k < n, s.th k = .idle) : ∃ j', Inv n t j' := by
  cases a with
  | call k o =>
    simp only [step] at h
    split at h
    · rename_i hc
      cases h
      have hidle : ∀ k, s.th k = .idle := by
        intro x
        by_cases e : x = j
        · subst e
          by_cases hxn : x < n
          · exact hq k o rfl x hxn
          · exact i.far x (by omega)
        · exact i.idle x e
      refine ⟨k, ?_⟩
      have hcnt := i.cnt
      rw [hidle j] at hcnt
      refine ⟨fun x hx => by simp only [setTh]; rw [if_neg (by have := hc.1; omega)]; exact hidle x, fun x hx => by simp [setTh, hx, hidle x], ?_, i.nodup, i.live, i.dead, ?_, i.bad⟩
      · simp only [setTh, if_true]
        cases o <;> simpa [extra] using hcnt
      · simp only [setTh, if_true]
        cases o <;> simp [Fits, hc.2.2.1]
    · cases h
  | go k =>
    simp only [step] at h
    split at h
    rotate_left
    · cases h
    rename_i hkn
    by_cases e : k = j
    · subst e
      have hf := i.fits
      have hcnt := i.cnt
      have hbad := i.bad
      refine ⟨k, ?_⟩
      have hfar : ∀ (p : Pc) x, n ≤ x → (setTh s k p).th x = .idle := fun p x hx => by
        simp only [setTh]; rw [if_neg (by omega)]; exact i.far x hx
      have hid : ∀ (p : Pc) x, x ≠ k → (setTh s k p).th x = .idle := fun p x hx => by simp [setTh, hx, i.idle x hx]
      split at h
      · cases h
      · rename_i o hp
        cases h
        rw [hp] at hf hcnt
        have hne := ok_ne hf.1
        refine ⟨hfar _, hid _, ?_, i.nodup, i.live, i.dead, ?_, ?_⟩
        · simpa [setTh, extra] using hcnt
        · simpa [setTh, Fits] using hf
        · simp [hbad, i.live, hne]
      · rename_i o r hp
        cases h
        rw [hp] at hf hcnt
        have hne := ok_ne hf.1
        refine ⟨hfar _, hid _, ?_, i.nodup, i.live, i.dead, ?_, ?_⟩
        · simp only [setTh, extra, if_true, Nat.add_zero] at hcnt ⊢
          rw [hf.2.2, hcnt]
        · simpa [setTh, Fits] using ⟨hf.1, hf.2.1⟩
        · simp [hbad, i.live, hne]
      · rename_i o hp
        rw [hp] at hf hcnt
        have hne := ok_ne hf.1
        have hd : s.dead = 0 := by rw [i.dead, if_neg hne]
        split at h
        · rename_i x d
          cases h
          have hnd : d ∉ s.held := by have := hf.1; simp [Op.ok] at this; exact this.2
          refine ⟨hfar _, hid _, ?_, ?_, ?_, ?_, ?_, ?_⟩
          · simp only [setTh, extra, if_true, List.length_append, List.length_singleton, Nat.add_zero] at hcnt ⊢; exact hcnt
          · rw [List.nodup_append]
            exact ⟨i.nodup, by simp, fun a ha b hb => by simp at hb; subst hb; intro e; subst e; exact hnd ha⟩
          · simp only [setTh, i.live]
            cases hx : s.held with
            | nil => exact absurd hx hne
            | cons a l => rfl
          · simp [setTh, hd]
          · simp [setTh, Fits]
          · simp [hbad, hd]
        · rename_i hnc
          cases h
          refine ⟨hfar _, hid _, ?_, i.nodup, i.live, i.dead, ?_, by simp [hbad, hd]⟩
          · cases o with
            | copy x d => exact absurd rfl (hnc x d)
            | drop x => exact absurd rfl (hf.2 x)
            | listen x => simpa [setTh, extra] using hcnt
          · simpa [setTh, Fits] using ⟨hf.1, fun x d => hnc x d⟩
      · rename_i o hp
        cases h
        rw [hp] at hf hcnt
        have hne := ok_ne hf.1
        refine ⟨hfar _, hid _, ?_, i.nodup, i.live, i.dead, ?_, ?_⟩
        · cases o <;> simpa [setTh, extra] using hcnt
        · simpa [setTh, Fits] using hf
        · simp [hbad, i.live, hne]
      · rename_i o r hp
        cases h
        rw [hp] at hf hcnt
        have hne := ok_ne hf.1
        have hlen : 0 < s.held.length := List.length_pos_iff.mpr hne
        obtain ⟨f1, f2, f3⟩ := hf
        cases o with
        | copy x d => exact absurd rfl (f2 x d)
        | drop x =>
          have hm : x ∈ s.held := by simpa [Op.ok] using f1
          have hl := filter_len i.nodup hm
          simp only [extra, Nat.add_zero] at hcnt
          have hr : r = (s.held.filter (· != x)).length + 1 := by omega
          have hiff : (s.held.filter (· != x)) = [] ↔ r = 1 := by
            rw [← List.length_eq_zero_iff]; omega
          refine ⟨hfar _, hid _, ?_, i.nodup.filter _, ?_, ?_, ?_, ?_⟩
          · simp only [setTh, extra, if_true]; omega
          · simp only [setTh, i.live]
            cases hx : s.held.filter (· != x) with
            | nil => simp [hiff.mp hx]
            | cons a l =>
              have : r ≠ 1 := fun e => by rw [hiff.mpr e] at hx; cases hx
              simp [this, hne]
          · simp only [setTh, i.dead, if_neg hne]
            by_cases e : r = 1
            · rw [if_pos (by simp [e]), if_pos (hiff.mpr e)]
            · rw [if_neg (by simp [e]), if_neg (fun h => e (hiff.mp h))]
          · simp [setTh, Fits]
          · simp only [setTh, hbad, i.live, Bool.false_or, Bool.or_eq_false_iff, beq_eq_false_iff_ne]
            exact ⟨by simp [hne], by omega⟩
        | listen x =>
          simp only [extra] at hcnt
          have hr : r ≠ 1 := by omega
          refine ⟨hfar _, hid _, ?_, i.nodup, ?_, ?_, ?_, ?_⟩
          · simp only [setTh, extra, if_true]; omega
          · simp [setTh, i.live, hr]
          · simp [setTh, i.dead, hr]
          · simp [setTh, Fits]
          · simp only [setTh, hbad, i.live, Bool.false_or, Bool.or_eq_false_iff, beq_eq_false_iff_ne]
            exact ⟨by simp [hne], by omega⟩
    · rw [i.idle k e] at h; cases h

theorem CertShare.inv_run {n : Nat} {as : List Act} {s t : St} (hi : ∃ j, Inv n s j) (h : run n s as = some t) (hq : OneByOne n s as) :
    ∃ j, Inv n t j := by
  induction as generalizing s with
  | nil => cases h; exact hi
  | cons a as ih =>
    simp only [run, Option.bind_eq_some_iff] at h
    obtain ⟨u, hu, h⟩ := h
    obtain ⟨j, i⟩ := hi
    exact ih (inv_step i hu (hq u hu).1) h (hq u hu).2

theorem CertShare.inv_init (n : Nat) : Inv n init 0 :=
  ⟨fun _ _ => rfl, fun _ _ => rfl, rfl, by simp [init], rfl, rfl, trivial, rfl⟩

/-- One thread makes one call after the other. -/
theorem CertShare.single {as : List Act} (s : St) : OneByOne 1 s as := by
  induction as generalizing s with
  | nil => trivial
  | cons a as ih =>
    intro t ht
    refine ⟨fun j o e k hk => ?_, ih t⟩
    subst e
    simp only [step] at ht
    split at ht
    · rename_i hc
      have : k = j := by omega
      rw [this]; exact hc.2.1
    · cases ht

end Salticidae
