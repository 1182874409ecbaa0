import Verif.Model.Util
import Verif.Spec.Util
namespace Salticidae
namespace Util

theorem take_eq_iff_prefix {s d : Str} : s.take d.length = d ↔ d <+: s := by
  constructor
  · intro h; rw [← h]; exact List.take_prefix _ _
  · rintro ⟨t, rfl⟩; simp

theorem occurs_iff {s d : Str} {p : Nat} (hp : p ≤ s.length) :
    (decide (p + d.length ≤ s.length) && (s.drop p).take d.length == d) = true ↔ d <+: s.drop p := by
  simp only [Bool.and_eq_true, decide_eq_true_eq, beq_iff_eq, take_eq_iff_prefix]
  constructor
  · exact fun h => h.2
  · intro h
    have := h.length_le
    simp at this
    exact ⟨by omega, h⟩

theorem find_some {s d : Str} {pos p : Nat} (h : find s d pos = some p) :
    pos ≤ p ∧ p + d.length ≤ s.length ∧ d <+: s.drop p ∧
      ∀ q, pos ≤ q → q < p → ¬ d <+: s.drop q := by
  unfold find at h
  rw [List.find?_range'_eq_some] at h
  obtain ⟨h1, h2, h3⟩ := h
  simp at h2
  have hp : p ≤ s.length := by omega
  have h4 := (occurs_iff hp).1 h1
  refine ⟨h2.1, by simp at h1; exact h1.1, h4, ?_⟩
  intro q h5 h6 h7
  have h8 := h3 q h5 h6
  rw [(occurs_iff (by omega)).2 h7] at h8
  cases h8

theorem find_none {s d : Str} {pos : Nat} (h : find s d pos = none) :
    ∀ q, pos ≤ q → q ≤ s.length → ¬ d <+: s.drop q := by
  unfold find at h
  rw [List.find?_eq_none] at h
  intro q h1 h2 h3
  exact h q (by simp; omega) ((occurs_iff h2).2 h3)

theorem infix_drop {d s : Str} : d <:+: s ↔ ∃ q, q ≤ s.length ∧ d <+: s.drop q := by
  constructor
  · rintro ⟨a, b, rfl⟩
    exact ⟨a.length, by simp, b, by simp⟩
  · rintro ⟨q, _, b, hb⟩
    exact ⟨s.take q, b, by rw [List.append_assoc, hb, List.take_append_drop]⟩

/-- The pieces produced from `lastpos` on. -/
theorem splitLoop_spec {s d : Str} (hd : d ≠ []) :
    ∀ (n lastpos : Nat) (res : List Str), lastpos ≤ s.length → s.length - lastpos ≤ n →
    ∃ ps, (∀ fuel, n < fuel → splitLoop s d fuel lastpos res = some (res ++ ps)) ∧
      Spec.IsSplit d (s.drop lastpos) ps := by
  have hdl : 0 < d.length := List.length_pos_iff.2 hd
  intro n
  induction n using Nat.strongRecOn with
  | ind n ih =>
    intro lastpos res hl hn
    rcases hf : find s d lastpos with _ | pos
    · refine ⟨[s.drop lastpos], ?_, ?_⟩
      · intro fuel hfu
        obtain ⟨f, rfl⟩ : ∃ f, fuel = f + 1 := ⟨fuel - 1, by omega⟩
        simp only [splitLoop, hf, substr]
        rw [List.take_of_length_le (by simp)]
      · refine ⟨by simp, by simp [List.intercalate], ?_, by simp⟩
        intro p hp hinf
        simp at hp; subst hp
        obtain ⟨q, hq, hpre⟩ := infix_drop.1 hinf
        rw [List.drop_drop] at hpre
        simp at hq
        exact find_none hf (lastpos + q) (by omega) (by omega) hpre
    · obtain ⟨h1, h2, h3, h4⟩ := find_some hf
      obtain ⟨ps, hps, hsp⟩ := ih (n - 1) (by omega) (pos + d.length)
        (res ++ [substr s lastpos (pos - lastpos)]) h2 (by omega)
      refine ⟨substr s lastpos (pos - lastpos) :: ps, ?_, ?_⟩
      · intro fuel hfu
        obtain ⟨f, rfl⟩ : ∃ f, fuel = f + 1 := ⟨fuel - 1, by omega⟩
        simp only [splitLoop, hf]
        rw [hps f (by omega)]
        simp
      · obtain ⟨g1, g2, g3, g4⟩ := hsp
        obtain ⟨t, ht⟩ := h3
        have hdrop : s.drop (pos + d.length) = t := by
          rw [← List.drop_drop, ← ht]; simp
        have hs : s.drop lastpos = substr s lastpos (pos - lastpos) ++ (d ++ t) := by
          rw [ht, substr]
          have : s.drop pos = (s.drop lastpos).drop (pos - lastpos) := by
            rw [List.drop_drop]; congr 1; omega
          rw [this, List.take_append_drop]
        have hnot : ¬ d <:+: substr s lastpos (pos - lastpos) ++ d.dropLast := by
          intro hinf
          obtain ⟨q, hq, hpre⟩ := infix_drop.1 hinf
          have hlen := hpre.length_le
          have hsub : (substr s lastpos (pos - lastpos)).length = pos - lastpos := by
            simp [substr]; omega
          simp [hsub] at hlen hq
          have : q < pos - lastpos := by omega
          refine h4 (lastpos + q) (by omega) (by omega) ?_
          rw [← List.drop_drop, hs, ← List.dropLast_concat_getLast hd]
          rw [List.dropLast_concat_getLast hd]
          have e : substr s lastpos (pos - lastpos) ++ (d ++ t) =
              (substr s lastpos (pos - lastpos) ++ d.dropLast) ++ ([d.getLast hd] ++ t) := by
            rw [List.append_assoc, ← List.append_assoc d.dropLast,
              List.dropLast_concat_getLast hd]
          rw [e, List.drop_append_of_le_length (by simp [hsub]; omega)]
          exact hpre.trans (List.prefix_append _ _)
        refine ⟨by simp, ?_, ?_, ?_⟩
        · obtain ⟨p, ps', rfl⟩ := List.exists_cons_of_ne_nil g1
          rw [hs, ← hdrop, ← g2]
          simp [List.intercalate, List.intersperse]
        · intro p hp hinf
          rcases List.mem_cons.1 hp with rfl | hp
          · exact hnot (hinf.trans (List.infix_append' [] _ _))
          · exact g3 p hp hinf
        · intro p hp
          obtain ⟨p', ps', rfl⟩ := List.exists_cons_of_ne_nil g1
          rw [List.dropLast_cons_of_ne_nil (by simp)] at hp
          rcases List.mem_cons.1 hp with rfl | hp
          · exact hnot
          · exact g4 p hp

/-- With an empty delimiter the loop never ends. -/
theorem splitLoop_empty (s : Str) : ∀ fuel lastpos res, lastpos ≤ s.length →
    splitLoop s [] fuel lastpos res = none := by
  intro fuel
  induction fuel with
  | zero => intros; rfl
  | succ f ih =>
    intro lastpos res hl
    have : find s [] lastpos = some lastpos := by
      unfold find
      rw [List.find?_range'_eq_some]
      refine ⟨by simp [hl], by simp; omega, by intro j h1 h2; omega⟩
    simp only [splitLoop, this, List.length_nil, Nat.add_zero]
    exact ih _ _ hl

theorem split_unique_aux {α : Type} {d : List α} (hd : d ≠ []) {a b : List α} {x y : List α}
    (ha : ¬ d <:+: a ++ d.dropLast) (hb : ¬ d <:+: b ++ d.dropLast)
    (h : a ++ (d ++ x) = b ++ (d ++ y)) : a = b ∧ x = y := by
  have key : ∀ {a b x y : List α}, ¬ d <:+: b ++ d.dropLast → a ++ (d ++ x) = b ++ (d ++ y) →
      ¬ a.length < b.length := by
    intro a b x y hb h hlt
    apply hb
    have hdl : 0 < d.length := List.length_pos_iff.2 hd
    refine ⟨a, (b ++ d.dropLast).drop (a.length + d.length), ?_⟩
    have h1 : a ++ d = (b ++ d.dropLast).take (a.length + d.length) := by
      have e1 : a ++ d = (a ++ (d ++ x)).take (a.length + d.length) := by
        rw [← List.append_assoc, List.take_append_of_le_length (by simp),
          List.take_of_length_le (by simp)]
      have e2 : b ++ (d ++ y) = (b ++ d.dropLast) ++ ([d.getLast hd] ++ y) := by
        rw [List.append_assoc, ← List.append_assoc d.dropLast, List.dropLast_concat_getLast hd]
      rw [e1, h, e2, List.take_append_of_le_length (by simp; omega)]
    rw [h1, List.take_append_drop]
  have hl : a.length = b.length := by
    have := key hb h
    have := key ha h.symm
    omega
  obtain ⟨rfl, h2⟩ := List.append_inj h hl
  exact ⟨rfl, List.append_cancel_left h2⟩

theorem split_unique {α : Type} {d : List α} (hd : d ≠ []) :
    ∀ {ps qs : List (List α)} {s : List α}, Spec.IsSplit d s ps → Spec.IsSplit d s qs → ps = qs := by
  intro ps
  induction ps with
  | nil => intro qs s h; exact absurd rfl h.1
  | cons p ps ih =>
    intro qs s ⟨_, h2, h3, h4⟩ ⟨g1, g2, g3, g4⟩
    obtain ⟨q, qs, rfl⟩ := List.exists_cons_of_ne_nil g1
    rcases ps with _ | ⟨p', ps⟩ <;> rcases qs with _ | ⟨q', qs⟩
    · simp [List.intercalate] at h2 g2; rw [h2, g2]
    · exfalso
      simp [List.intercalate] at h2
      subst h2
      refine h3 p (by simp) ?_
      rw [← g2]
      refine ⟨q, d.intercalate (q' :: qs), ?_⟩
      simp [List.intercalate, List.intersperse]
    · exfalso
      simp [List.intercalate] at g2
      subst g2
      refine g3 q (by simp) ?_
      rw [← h2]
      refine ⟨p, d.intercalate (p' :: ps), ?_⟩
      simp [List.intercalate, List.intersperse]
    · have e1 : d.intercalate (p :: p' :: ps) = p ++ (d ++ d.intercalate (p' :: ps)) := by
        simp [List.intercalate, List.intersperse]
      have e2 : d.intercalate (q :: q' :: qs) = q ++ (d ++ d.intercalate (q' :: qs)) := by
        simp [List.intercalate, List.intersperse]
      rw [e1] at h2; rw [e2] at g2
      rw [List.dropLast_cons_of_ne_nil (by simp)] at h4 g4
      obtain ⟨rfl, hx⟩ := split_unique_aux hd (h4 p (by simp)) (g4 q (by simp)) (h2.trans g2.symm)
      congr 1
      refine ih (s := d.intercalate (p' :: ps)) ⟨by simp, rfl, fun r hr => h3 r (by simp [hr]),
        fun r hr => h4 r (by simp [hr])⟩ ⟨by simp, hx.symm, fun r hr => g3 r (by simp [hr]),
        fun r hr => g4 r (by simp [hr])⟩

theorem trim_isTrim (s space : Str) : Spec.IsTrim space s (trim s space) := by
  unfold trim findFirstNotOf
  rcases h1 : s.findIdx? (fun c => !space.contains c) with _ | b
  · rw [List.findIdx?_eq_none_iff] at h1
    refine ⟨s, [], by simp, ?_, by simp, by simp, by simp⟩
    intro c hc; simpa using h1 c hc
  · rw [List.findIdx?_eq_some_iff_getElem] at h1
    obtain ⟨hb, hb1, hb2⟩ := h1
    simp only [findLastNotOf]
    rcases h2 : s.reverse.findIdx? (fun c => !space.contains c) with _ | e
    · exfalso
      rw [List.findIdx?_eq_none_iff] at h2
      have := h2 s[b] (by simp)
      rw [this] at hb1; cases hb1
    · rw [List.findIdx?_eq_some_iff_getElem] at h2
      obtain ⟨he, he1, he2⟩ := h2
      simp only [Option.map_some, substr]
      simp at he
      rw [List.getElem_reverse] at he1
      have hbe : b ≤ s.length - 1 - e := by
        apply Nat.le_of_not_lt
        intro hlt
        have := hb2 (s.length - 1 - e) hlt
        simp_all
      have hlen : b + (s.length - 1 - e - b + 1) = s.length - e := by omega
      refine ⟨s.take b, s.drop (s.length - e), ?_, ?_, ?_, ?_, ?_⟩
      · rw [List.append_assoc]
        have : List.drop (s.length - e) s = List.drop (s.length - 1 - e - b + 1) (List.drop b s) := by
          rw [List.drop_drop]; congr 1; omega
        rw [this, List.take_append_drop, List.take_append_drop]
      · intro c hc
        rw [List.mem_take_iff_getElem] at hc
        obtain ⟨i, hi, rfl⟩ := hc
        have := hb2 i (by omega)
        simpa using this
      · intro c hc
        rw [List.mem_drop_iff_getElem] at hc
        obtain ⟨i, hi, rfl⟩ := hc
        have := he2 (e - 1 - i) (by omega)
        rw [List.getElem_reverse] at this
        have hi2 : s.length - 1 - (e - 1 - i) = s.length - e + i := by omega
        simp only [hi2] at this
        simpa using this
      · intro c hc
        rw [List.head?_take] at hc
        simp at hc
        rw [List.getElem?_eq_getElem hb] at hc
        simp at hc
        subst hc
        simpa using hb1
      · intro c hc
        rw [List.getLast?_eq_getElem?] at hc
        simp only [List.length_take, List.length_drop] at hc
        rw [List.getElem?_take] at hc
        rw [if_pos (by omega), List.getElem?_drop] at hc
        have : b + (min (s.length - 1 - e - b + 1) (s.length - b) - 1) = s.length - 1 - e := by omega
        rw [this, List.getElem?_eq_getElem (by omega)] at hc
        simp at hc
        subst hc
        simpa using he1

theorem isTrim_unique {α : Type} {space s t u : List α} (h : Spec.IsTrim space s t)
    (g : Spec.IsTrim space s u) : t = u := by
  obtain ⟨l, r, rfl, h2, h3, h4, h5⟩ := h
  obtain ⟨l', r', g1, g2, g3, g4, g5⟩ := g
  -- drop the left parts
  have aux : ∀ {l l' x y : List α}, l ++ x = l' ++ y → (∀ c ∈ l, c ∈ space) →
      (∀ c ∈ l', c ∈ space) → (∀ c, x.head? = some c → c ∉ space) →
      (∀ c, y.head? = some c → c ∉ space) → x = y := by
    intro l
    induction l with
    | nil =>
      intro l' x y h _ hl' hx _
      rcases l' with _ | ⟨c, l'⟩
      · simpa using h
      · exfalso
        simp at h; subst h
        exact hx c (by simp) (hl' c (by simp))
    | cons c l ih =>
      intro l' x y h hl hl' hx hy
      rcases l' with _ | ⟨c', l'⟩
      · exfalso
        simp at h; subst h
        exact hy c (by simp) (hl c (by simp))
      · simp at h
        exact ih h.2 (fun c hc => hl c (by simp [hc])) (fun c hc => hl' c (by simp [hc])) hx hy
  by_cases ht : t = []
  · subst ht
    by_cases hu : u = []
    · exact hu.symm
    · exfalso
      have hm : u.head hu ∈ l ++ [] ++ r := by rw [g1]; simp
      have : u.head hu ∈ space := by
        simp at hm
        rcases hm with hm | hm
        · exact h2 _ hm
        · exact h3 _ hm
      exact g4 _ (List.head?_eq_some_head hu) this
  · have hu : u ≠ [] := by
      intro hu; subst hu
      have hm : t.head ht ∈ l' ++ [] ++ r' := by rw [← g1]; simp
      have : t.head ht ∈ space := by
        simp at hm
        rcases hm with hm | hm
        · exact g2 _ hm
        · exact g3 _ hm
      exact h4 _ (List.head?_eq_some_head ht) this
    rw [List.append_assoc, List.append_assoc] at g1
    have e1 : t ++ r = u ++ r' := by
      refine aux g1 h2 g2 ?_ ?_
      · intro c hc
        obtain ⟨a, t', rfl⟩ := List.exists_cons_of_ne_nil ht
        exact h4 c (by simpa using hc)
      · intro c hc
        obtain ⟨a, t', rfl⟩ := List.exists_cons_of_ne_nil hu
        exact g4 c (by simpa using hc)
    have e2 : r.reverse ++ t.reverse = r'.reverse ++ u.reverse := by
      rw [← List.reverse_append, ← List.reverse_append, e1]
    have e3 := aux e2 (by simpa using h3) (by simpa using g3)
      (by simpa using h5) (by simpa using g5)
    simpa using e3

theorem vstringprintf_short {guess : Nat} {text : Str} (h : text.length < guess) :
    vstringprintf guess text = text := by
  unfold vstringprintf
  rw [if_neg (by omega)]
  simp only [vsnprintf, if_neg (show guess ≠ 0 by omega), resize]
  rw [List.take_of_length_le (l := text) (by omega)]
  simp

theorem vstringprintf_long {guess : Nat} {text : Str} (hg : 0 < guess) (h : guess ≤ text.length) :
    vstringprintf guess text = text.dropLast ++ ['\x00'] := by
  unfold vstringprintf
  have hlen : (vsnprintf (List.replicate guess '\x00') guess text).length = guess := by
    simp [vsnprintf, if_neg (show guess ≠ 0 by omega)]; omega
  by_cases hgt : guess < text.length
  · rw [if_pos hgt]
    generalize hb : resize _ _ = b
    have hbl : b.length = text.length := by
      rw [← hb]; simp [resize, hlen]; omega
    simp only [vsnprintf, if_neg (show text.length ≠ 0 by omega)]
    rw [List.drop_eq_nil_of_le (by simp [hbl]; omega), List.dropLast_eq_take]
    simp
  · rw [if_neg hgt]
    have : guess = text.length := by omega
    simp only [resize]
    rw [hlen, this, Nat.sub_self]
    simp only [vsnprintf, if_neg (show text.length ≠ 0 by omega)]
    rw [List.drop_eq_nil_of_le (by simp; omega), List.dropLast_eq_take]
    rw [List.take_of_length_le (by simp; omega)]
    simp

end Util
end Salticidae
