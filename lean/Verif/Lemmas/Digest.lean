import Verif.Spec.Digest
import Verif.Props.Blob
import Verif.Props.NetAddr
namespace Salticidae
open Digest Spec.Digest

theorem getHash_spec (H : List Byte → List Byte) (hH : ∀ x, (H x).length = 32) (s : DataStream) (ho : s.offset ≤ s.buffer.length)
    (hb : s.buffer.length < sizeMod) :
    ∃ b, getHash H s = some b ∧ b.isNull = false ∧ b.data.length = 4 ∧ ∀ e, b.toBytes e = H (s.buffer.drop s.offset) := by
  obtain ⟨bs, hbs⟩ : ∃ bs, s.buffer.drop s.offset = bs := ⟨_, rfl⟩
  rw [hbs]
  obtain ⟨b, h1, h2, h3, h4⟩ := (C08_blob_roundtrip 8 4 (by decide) (H bs) .little .little).2 (by rw [hH])
  refine ⟨b, ?_, h2, ?_, ?_⟩
  · have hs : s.size = bs.length := by
      rw [← hbs]
      simp only [DataStream.size, List.length_drop]
      simp only [sizeMod] at *
      omega
    unfold getHash
    rw [if_neg (by omega)]
    simp only [hs, hbs, List.take_length, run, step, fresh, final, Option.map_some, Option.bind_some, List.nil_append,
      Option.toList_none, Option.toList_some, List.drop_replicate, hH]
    simpa using h1
  · simp only [Blob.ofBytes] at h1
    split at h1
    · cases h1
    · cases h1; simp [Blob.load, Blob.loadLoop]
  · intro e
    obtain ⟨b', h1', _, h3', _⟩ := (C08_blob_roundtrip 8 4 (by decide) (H bs) e .little).2 (by rw [hH])
    rw [h1] at h1'; cases h1'; exact h3'

theorem idOfAddr_spec (H : List Byte → List Byte) (hH : ∀ x, (H x).length = 32) (e : Endian) (a : NetAddr) (quad : List Byte) (port : Nat)
    (hm : a.meaning e quad port) : ∃ b, idOfAddr H e a = some b ∧ b.isNull = false ∧ b.data.length = 4 ∧
      ∀ f, b.toBytes f = H (addrBytes quad port) := by
  have hb : a.serialize e DataStream.empty = ⟨addrBytes quad port, 0⟩ := by
    simp only [NetAddr.serialize, DataStream.putInt, DataStream.putData, DataStream.empty, hm.1, hm.2, addrBytes, Spec.leEnc]
    simp
  have hl : (addrBytes quad port).length < sizeMod := by
    have : quad.length = 4 := by rw [← hm.1]; exact memEnc_length e a.ip
    simp [addrBytes, this, sizeMod]
  unfold idOfAddr
  rw [hb]
  exact getHash_spec H hH ⟨addrBytes quad port, 0⟩ (Nat.zero_le _) hl

theorem results_ends (H : List Byte → List Byte) (acc acc' : List Byte) (ops : List Op)
    (h : ∀ o os, ops = o :: os → o = .reset) : results H acc ops = results H acc' ops := by
  cases ops with
  | nil => rfl
  | cons o os => rw [h o os rfl]; rfl

theorem proper_tail {o : Op} {os : List Op} (h : Proper (o :: os)) : Proper os := by
  cases o <;> cases os <;> first | exact h | exact h.2

/-- For both classes: the digests begin with the hash, and are 32 bytes long. -/
theorem run_spec (H : List Byte → List Byte) (n : Nat) (hn : n ≤ 32) (hH : ∀ x, (H x).length = n) (ops : List Op) :
    ∀ (acc : List Byte), Proper ops → ∃ r, run H (some acc) ops = some r ∧ r.map (·.take n) = results H acc ops ∧ ∀ x ∈ r, x.length = 32 := by
  have next : ∀ (os : List Op) (acc : List Byte), (∀ o os', os = o :: os' → o = .reset) →
      (∀ acc, Proper os → ∃ r, run H (some acc) os = some r ∧ r.map (·.take n) = results H acc os ∧ ∀ x ∈ r, x.length = 32) →
      Proper os → ∃ r, run H none os = some r ∧ r.map (·.take n) = results H acc os ∧ ∀ x ∈ r, x.length = 32 := by
    intro os acc h1 h2 h3
    cases os with
    | nil => exact ⟨[], rfl, rfl, by simp⟩
    | cons o os =>
      have := h1 o os rfl
      subst this
      exact h2 acc h3
  induction ops with
  | nil => intro acc _; exact ⟨[], rfl, rfl, by simp⟩
  | cons o os ih =>
    intro acc hp
    have hp' := proper_tail hp
    have ih' := fun acc => ih acc hp'
    have first : ∀ md : List Byte, md.length = 32 → (final (H acc) md).take n = H acc ∧ (final (H acc) md).length = 32 := by
      intro md hmd
      constructor
      · rw [final, ← hH acc, List.take_left]
      · simp [final, hH, hmd]; omega
    cases o with
    | reset =>
      obtain ⟨r, h1, h2, h3⟩ := ih' []
      exact ⟨r, by simp [run, step, h1], by rw [h2]; rfl, h3⟩
    | update bs =>
      obtain ⟨r, h1, h2, h3⟩ := ih' (acc ++ bs)
      exact ⟨r, by simp [run, step, h1], by rw [h2]; rfl, h3⟩
    | digest =>
      have hr : ∀ o os', os = o :: os' → o = .reset := by rintro o os' rfl; exact hp.1
      obtain ⟨r, h1, h2, h3⟩ := next os acc hr ih hp'
      obtain ⟨f1, f2⟩ := first (List.replicate 32 0) (by simp)
      refine ⟨final (H acc) (List.replicate 32 0) :: r, by simp only [run, step, h1, Option.map_some, Option.bind_some]; rfl, ?_, ?_⟩
      · simp only [List.map_cons, f1, h2, results]
      · intro x hx
        rcases List.mem_cons.mp hx with rfl | hx
        · exact f2
        · exact h3 x hx
    | digestInto md =>
      have hr : ∀ o os', os = o :: os' → o = .reset := by rintro o os' rfl; exact hp.1
      obtain ⟨r, h1, h2, h3⟩ := next os acc hr ih hp'
      obtain ⟨f1, f2⟩ := first (resize 32 md) (by simp [resize]; omega)
      refine ⟨final (H acc) (resize 32 md) :: r, by simp only [run, step, h1, Option.map_some, Option.bind_some]; rfl, ?_, ?_⟩
      · simp only [List.map_cons, f1, h2, results]
      · intro x hx
        rcases List.mem_cons.mp hx with rfl | hx
        · exact f2
        · exact h3 x hx

end Salticidae
