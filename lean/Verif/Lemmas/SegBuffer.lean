import Verif.Model.SegBuffer
namespace Salticidae.SegBuffer

/-- The unread bytes, in order. -/
def content (b : SegBuffer) : List Byte := b.segs.flatMap fun s => s.data.drop s.off

/-- Reachable buffers: offsets inside their segment, counter equal to the number of unread bytes. -/
def Wf (b : SegBuffer) : Prop :=
  (∀ s ∈ b.segs, s.off ≤ s.data.length) ∧ b.sz = b.content.length % sizeMod

theorem wf_empty : empty.Wf := ⟨by simp [empty], by simp [empty, content, sizeMod]⟩

theorem push_spec {b : SegBuffer} (h : b.Wf) (d : List Byte) :
    (b.push d).Wf ∧ (b.push d).content = b.content ++ d := by
  have hc : (b.push d).content = b.content ++ d := by simp [push, content]
  refine ⟨⟨?_, ?_⟩, hc⟩
  · intro s hs
    simp only [push, List.mem_append, List.mem_singleton] at hs
    rcases hs with hs | hs
    · exact h.1 s hs
    · subst hs; simp
  · rw [hc]; simp [push, h.2, Nat.add_mod]

theorem rewind_spec {b : SegBuffer} (h : b.Wf) (d : List Byte) :
    (b.rewind d).Wf ∧ (b.rewind d).content = d ++ b.content := by
  have hc : (b.rewind d).content = d ++ b.content := by simp [rewind, content]
  refine ⟨⟨?_, ?_⟩, hc⟩
  · intro s hs
    simp only [rewind, List.mem_cons] at hs
    rcases hs with hs | hs
    · subst hs; simp
    · exact h.1 s hs
  · rw [hc]; simp [rewind, h.2, Nat.add_mod, Nat.add_comm]

theorem popLoop_spec (n : Nat) (segs : List Seg) (h : ∀ s ∈ segs, s.off ≤ s.data.length) :
    let r := popLoop n segs
    r.1 = (segs.flatMap fun s => s.data.drop s.off).take n ∧
    (r.2.flatMap fun s => s.data.drop s.off) = (segs.flatMap fun s => s.data.drop s.off).drop n ∧
    ∀ s ∈ r.2, s.off ≤ s.data.length := by
  induction segs generalizing n with
  | nil => cases n <;> simp [popLoop]
  | cons s segs ih =>
    cases n with
    | zero => exact ⟨by simp [popLoop], by simp [popLoop], h⟩
    | succ n =>
      have hs := h s (by simp)
      simp only [popLoop]
      split
      · rename_i hfull
        have hmin : min s.length (n + 1) = s.data.length - s.off := by
          simp only [Seg.length] at hfull ⊢; omega
        have := ih (n + 1 - min s.length (n + 1)) (fun x hx => h x (by simp [hx]))
        obtain ⟨h1, h2, h3⟩ := this
        have hlen : (s.data.drop s.off).length = min s.length (n + 1) := by simp [hmin]
        refine ⟨?_, ?_, h3⟩
        · simp only
          have e1 : (s.data.drop s.off).take (min s.length (n + 1)) = s.data.drop s.off :=
            List.take_of_length_le (by omega)
          have e2 : (s.data.drop s.off).take (n + 1) = s.data.drop s.off :=
            List.take_of_length_le (by omega)
          rw [h1, List.flatMap_cons, List.take_append, hlen, e1, e2]
        · simp only
          rw [h2, List.flatMap_cons, List.drop_append, hlen]
          rw [List.drop_of_length_le (by omega : (s.data.drop s.off).length ≤ n + 1)]
          simp
      · rename_i hpart
        have hmin : min s.length (n + 1) = n + 1 := by simp only [Seg.length] at hpart ⊢; omega
        have hlt : n + 1 < s.data.length - s.off := by
          simp only [Seg.length] at hpart hmin ⊢; omega
        refine ⟨?_, ?_, ?_⟩
        · simp only [hmin, List.flatMap_cons]
          rw [List.take_append_of_le_length (by simp; omega)]
        · simp only [hmin, List.flatMap_cons]
          rw [List.drop_append_of_le_length (by simp; omega), List.drop_drop]
        · intro x hx
          simp only [List.mem_cons, hmin] at hx
          rcases hx with hx | hx
          · subst hx; simp only; omega
          · exact h x (by simp [hx])

theorem pop_spec {b : SegBuffer} (h : b.Wf) (n : Nat) :
    (b.pop n).2.Wf ∧ (b.pop n).1 = b.content.take n ∧ (b.pop n).2.content = b.content.drop n := by
  obtain ⟨h1, h2, h3⟩ := popLoop_spec n b.segs h.1
  have e1 : (b.pop n).1 = b.content.take n := h1
  have e2 : (b.pop n).2.content = b.content.drop n := h2
  refine ⟨⟨h3, ?_⟩, e1, e2⟩
  rw [e2]
  have : (b.pop n).2.sz = (b.sz + (sizeMod - (b.pop n).1.length % sizeMod)) % sizeMod := rfl
  rw [this, e1, h.2]
  simp only [List.length_take, List.length_drop]
  generalize b.content.length = L
  have hM : 0 < sizeMod := by decide
  by_cases hn : n ≤ L
  · rw [Nat.min_eq_left hn]
    obtain ⟨k, rfl⟩ : ∃ k, L = n + k := ⟨L - n, by omega⟩
    have hk : n + k - n = k := by omega
    rw [hk]
    unfold sizeMod at *
    omega
  · rw [Nat.min_eq_right (by omega)]
    have hk : L - n = 0 := by omega
    rw [hk]
    unfold sizeMod at *
    omega

theorem clear_spec (b : SegBuffer) : b.clear.Wf ∧ b.clear.content = [] := ⟨wf_empty, rfl⟩

/-- A pop leaves no exhausted segment behind. -/
theorem popLoop_off (n : Nat) (segs : List Seg) (h : ∀ s ∈ segs, s.off < s.data.length) :
    ∀ s ∈ (popLoop n segs).2, s.off < s.data.length := by
  induction segs generalizing n with
  | nil => cases n <;> simp [popLoop]
  | cons s segs ih =>
    cases n with
    | zero => exact h
    | succ n =>
      simp only [popLoop]
      split
      · exact ih _ (fun x hx => h x (List.mem_cons_of_mem _ hx))
      · rename_i hne
        intro x hx
        rcases List.mem_cons.1 hx with hx | hx
        · rw [hx]
          have := h s (by simp)
          simp only [Seg.length] at hne ⊢
          omega
        · exact h x (List.mem_cons_of_mem _ hx)

end Salticidae.SegBuffer
