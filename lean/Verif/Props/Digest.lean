import Verif.Lemmas.Digest
/-!
C88: identities of peers.  C89: digest objects.
-/
namespace Salticidae
open Digest Spec.Digest

/-! ## C88 -/

/-- The identity made from an address is the hash of the four address bytes and the port number, most significant byte first; so it is the same
on hosts of either byte order, however the address object was made. -/
theorem C88_addr (H : List Byte → List Byte) (hH : ∀ x, (H x).length = 32) (e e' : Endian) (a a' : NetAddr) (quad : List Byte) (port : Nat)
    (h : a.meaning e quad port) (h' : a'.meaning e' quad port) :
    ∃ b b', idOfAddr H e a = some b ∧ idOfAddr H e' a' = some b' ∧ b.toBytes e = H (addrBytes quad port) ∧ b.eq b' = true := by
  obtain ⟨b, h1, h2, h3, h4⟩ := idOfAddr_spec H hH e a quad port h
  obtain ⟨b', h1', h2', h3', h4'⟩ := idOfAddr_spec H hH e' a' quad port h'
  refine ⟨b, b', h1, h1', h4 e, ?_⟩
  rw [(C09_blob_order 8 b b' (by rw [h3, h3']) h2 h2').2.2.1, h4, h4']

/-- Different addresses have different identities, unless the hash of the two byte strings that stand for them is the same. -/
theorem C88_distinct (H : List Byte → List Byte) (hH : ∀ x, (H x).length = 32) (e : Endian) (a a' : NetAddr) (quad quad' : List Byte)
    (port port' : Nat) (hp : port < 65536) (hp' : port' < 65536) (h : a.meaning e quad port) (h' : a'.meaning e quad' port')
    (b b' : Blob 8) (hb : idOfAddr H e a = some b) (hb' : idOfAddr H e a' = some b') (heq : b.eq b' = true) :
    (quad = quad' ∧ port = port') ∨ Collide H (addrBytes quad port) (addrBytes quad' port') := by
  obtain ⟨c, h1, h2, h3, h4⟩ := idOfAddr_spec H hH e a quad port h
  obtain ⟨c', h1', h2', h3', h4'⟩ := idOfAddr_spec H hH e a' quad' port' h'
  rw [hb] at h1; cases h1
  rw [hb'] at h1'; cases h1'
  rw [(C09_blob_order 8 b b' (by rw [h3, h3']) h2 h2').2.2.1, h4, h4'] at heq
  by_cases hx : addrBytes quad port = addrBytes quad' port'
  · left
    have hl : quad.length = quad'.length := by rw [← h.1, ← h'.1, memEnc_length, memEnc_length]
    obtain ⟨x, y⟩ := List.append_inj hx hl
    refine ⟨x, ?_⟩
    simp only [List.cons.injEq, and_true] at y
    have y1 := congrArg BitVec.toNat y.1
    have y2 := congrArg BitVec.toNat y.2
    simp only [BitVec.toNat_ofNat] at y1 y2
    omega
  · exact .inr ⟨hx, heq⟩

/-- The identity made from a certificate is the hash of its DER form: two certificates have the same identity only if they are the same
or the hash of their DER forms is; and an address and a certificate have the same identity only if the hash is. -/
theorem C88_cert (H : List Byte → List Byte) (hH : ∀ x, (H x).length = 32) (der : List Byte) (hd : der.length < 2 ^ 63) :
    ∃ b, idOfCert H der = some b ∧ (∀ e, b.toBytes e = H der) ∧
      (∀ der' b', der'.length < 2 ^ 63 → idOfCert H der' = some b' → b.eq b' = true → der = der' ∨ Collide H der der') ∧
      (∀ e a quad port b', a.meaning e quad port → idOfAddr H e a = some b' → b.eq b' = true →
        der.length = 6 ∨ Collide H der (addrBytes quad port)) := by
  have hs : (2 : Nat) ^ 63 < sizeMod := by decide
  have key : ∀ d : List Byte, d.length < 2 ^ 63 → ∃ b, idOfCert H d = some b ∧ b.isNull = false ∧ b.data.length = 4 ∧ ∀ e, b.toBytes e = H d := by
    intro d hd
    have := getHash_spec H hH ⟨d, 0⟩ (Nat.zero_le _) (by simp only; omega)
    simpa [idOfCert, DataStream.putData, DataStream.empty] using this
  obtain ⟨b, h1, h2, h3, h4⟩ := key der hd
  refine ⟨b, h1, h4, ?_, ?_⟩
  · intro der' b' hd' hb' heq
    obtain ⟨c, k1, k2, k3, k4⟩ := key der' hd'
    rw [hb'] at k1; cases k1
    rw [(C09_blob_order 8 b b' (by rw [h3, k3]) h2 k2).2.2.1, h4, k4] at heq
    by_cases hx : der = der'
    · exact .inl hx
    · exact .inr ⟨hx, heq⟩
  · intro e a quad port b' hm hb' heq
    obtain ⟨c, k1, k2, k3, k4⟩ := idOfAddr_spec H hH e a quad port hm
    rw [hb'] at k1; cases k1
    rw [(C09_blob_order 8 b b' (by rw [h3, k3]) h2 k2).2.2.1, h4, k4] at heq
    by_cases hx : der = addrBytes quad port
    · left
      have : quad.length = 4 := by rw [← hm.1]; exact memEnc_length e a.ip
      rw [hx]; simp [addrBytes, this]
    · exact .inr ⟨hx, heq⟩

/-- The identity of the node at the other end: with TLS and identities by certificate, of its certificate, whatever address it
claims; otherwise of the address, whatever certificate it has. -/
theorem C88_choice (H : List Byte → List Byte) (e : Endian) (tls : Bool) (m : Mode) (cert : Option (List Byte)) (a : NetAddr) :
    (tls = true ∧ m = .certBased → ∀ der, cert = some der → getPeerId H e tls m cert a = idOfCert H der) ∧
    (tls = false ∨ m = .addrBased → getPeerId H e tls m cert a = idOfAddr H e a) := by
  constructor
  · rintro ⟨rfl, rfl⟩ der rfl; rfl
  · rintro (rfl | rfl)
    · rfl
    · simp [getPeerId]

/-- A stand-in for the hash: the first 32 bytes. -/
def toyHash (x : List Byte) : List Byte := resize 32 x

theorem toyHash_length (x : List Byte) : (toyHash x).length = 32 := by simp [toyHash, resize]; omega

/-- 127.0.0.1:8000 on hosts of either byte order. -/
example : (⟨0x0100007f#32, 0x401f#16⟩ : NetAddr).meaning .little [127, 0, 0, 1] 8000 ∧
    (⟨0x7f000001#32, 0x1f40#16⟩ : NetAddr).meaning .big [127, 0, 0, 1] 8000 ∧
    (∀ x, (toyHash x).length = 32) ∧
    (idOfAddr toyHash .little ⟨0x0100007f#32, 0x401f#16⟩).map (·.toBytes .little |>.take 7) = some [127, 0, 0, 1, 31, 64, 0] ∧
    (idOfAddr toyHash .big ⟨0x7f000001#32, 0x1f40#16⟩).map (·.toBytes .big |>.take 7) = some [127, 0, 0, 1, 31, 64, 0] := by
  refine ⟨by unfold NetAddr.meaning; decide, by unfold NetAddr.meaning; decide, toyHash_length, by decide +kernel, by decide +kernel⟩

/-! ## C89 -/

/-- Whatever is done with a digest object, as long as it is reset after each digest, every digest is the hash of the bytes given since the
last reset (however they were divided into updates), and nothing else. -/
def C89_statement : Prop := ∀ (alg : Alg) (H : List Byte → List Byte), (∀ x, (H x).length = alg.len) → ∀ ops, Proper ops →
  run H fresh ops = some (results H [] ops)

/-- SHA1 gives 32 bytes; the digest has 20. -/
theorem C89_violated : ¬ C89_statement := by
  intro h
  have := h .sha1 (fun _ => List.replicate 20 1) (by simp [Alg.len]) [.digest] (by simp [Proper])
  revert this; decide

/-- And the other 12 are whatever was in the caller's array before: the same input, different results. -/
theorem C89_violated_content : ∃ H : List Byte → List Byte, (∀ x, (H x).length = Alg.sha1.len) ∧ ∃ md md',
    run H fresh [.digestInto md] ≠ run H fresh [.digestInto md'] :=
  ⟨fun _ => List.replicate 20 1, by simp [Alg.len], [], List.replicate 32 1, by decide⟩

/-- SHA256 keeps the promise. -/
theorem C89_sha256 (H : List Byte → List Byte) (hH : ∀ x, (H x).length = Alg.sha256.len) (ops : List Op) (hp : Proper ops) :
    run H fresh ops = some (results H [] ops) := by
  obtain ⟨r, h1, h2, h3⟩ := run_spec H 32 (Nat.le_refl _) hH ops [] hp
  rw [fresh, h1, ← h2]
  congr 1
  symm
  conv => rhs; rw [← List.map_id r]
  apply List.map_congr_left
  intro x hx
  simp [List.take_of_length_le (Nat.le_of_eq (h3 x hx))]

/-- SHA1: the first 20 bytes of each result are the digest.  Missing: the length, see `C89_violated`. -/
theorem C89_sha1_partial (H : List Byte → List Byte) (hH : ∀ x, (H x).length = Alg.sha1.len) (ops : List Op) (hp : Proper ops) :
    ∃ r, run H fresh ops = some r ∧ r.map (·.take 20) = results H [] ops := by
  obtain ⟨r, h1, h2, _⟩ := run_spec H 20 (by omega) hH ops [] hp
  exact ⟨r, h1, h2⟩

/-- get_hash of a stream is the hash of the bytes that have not been read yet. -/
theorem C89_stream (H : List Byte → List Byte) (hH : ∀ x, (H x).length = Alg.sha256.len) (s : DataStream) (hs : s.Wf) :
    ∃ b, getHash H s = some b ∧ ∀ e, b.toBytes e = H s.unread := by
  obtain ⟨b, h1, _, _, h4⟩ := getHash_spec H hH s hs.1 (by have := hs.2; simp only [sizeMod]; omega)
  exact ⟨b, h1, h4⟩

example : (⟨[1, 2, 3], 1⟩ : DataStream).Wf ∧ (getHash toyHash ⟨[1, 2, 3], 1⟩).map (·.toBytes .big |>.take 3) = some [2, 3, 0] :=
  ⟨by constructor <;> simp, by decide +kernel⟩

example : Proper [.update [1], .update [2, 3], .digest, .reset, .update [4], .digestInto [9, 9]] ∧
    run toyHash fresh [.update [1], .update [2, 3], .digest, .reset, .update [4], .digestInto [9, 9]] =
      some [toyHash [1, 2, 3], toyHash [4]] := ⟨by simp [Proper], by decide⟩

/-- Without the reset there is no digest: the object has been erased. -/
example : run toyHash fresh [.update [1], .digest, .update [2]] = none := by decide

end Salticidae
