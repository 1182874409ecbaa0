import Verif.Lemmas.NetAddr
/-
Property theorems for NetAddr (C14, C15).
-/
namespace Salticidae
open NetAddr

/-- The address that a host of byte order `e` stores for the four address bytes `a.b.c.d` (in this
order) and the port number `port`: memory holds both in network (big-endian) order. -/
def NetAddr.meaning (e : Endian) (quad : List Byte) (port : Nat) (a : NetAddr) : Prop :=
  memEnc e a.ip = quad ∧ memEnc e a.port = (Spec.leEnc 2 port).reverse

/-- C14.  Serialising appends exactly six bytes; unserialising them, possibly followed by other data,
into any NetAddr object on a host of the same or of the other byte order gives an address with the
same quad and port number, consumes exactly six bytes, and on the same byte order gives an equal
address; a stream with fewer bytes throws.  Equality is equality of both fields; equal addresses
hash equally. -/
theorem C14_netaddr_roundtrip (e e' : Endian) (a : NetAddr) (s0 : DataStream) :
    ∃ bytes, bytes.length = 6 ∧ a.serialize e s0 = s0.putData bytes ∧
      (∀ (old : NetAddr) (s : DataStream) (rest : List Byte), s.Wf → s.unread = bytes ++ rest →
        ∃ b t, old.unserialize e' s = (b, t, true) ∧ t.unread = rest ∧
          (∀ quad port, a.meaning e quad port → b.meaning e' quad port) ∧
          (e' = e → b.eq a = true)) ∧
      (∀ (old : NetAddr) (s : DataStream), s.Wf → s.unread.length < 6 →
        (old.unserialize e' s).2.2 = false) := by
  refine ⟨memEnc e a.ip ++ memEnc e a.port, by simp, ?_, ?_, ?_⟩
  · simp [serialize, DataStream.putInt, DataStream.putData]
  · intro old s rest hs hu
    obtain ⟨t, h1, -, h2⟩ := NetAddr.unserialize_ok hs e' old (memEnc_length e a.ip)
      (memEnc_length e a.port) hu
    refine ⟨_, t, h1, h2, ?_, ?_⟩
    · intro quad port hm
      constructor
      · have := memEnc_memDec e' (memEnc e a.ip)
        rw [memEnc_length] at this
        simp only [this]; exact hm.1
      · have := memEnc_memDec e' (memEnc e a.port)
        rw [memEnc_length] at this
        simp only [this]; exact hm.2
    · intro h
      subst h
      simp [NetAddr.eq, memDec_memEnc]
  · intro old s hs hl
    simp only [NetAddr.unserialize]
    by_cases h4 : 4 ≤ s.unread.length
    · rw [DataStream.getInt_ok hs h4]
      simp only
      rw [DataStream.getInt_short (DataStream.wf_advance hs h4) (by omega)
        (by rw [DataStream.unread_advance]; simp; omega)]
    · rw [DataStream.getInt_short hs (by omega) (by omega)]

/-- C14, equality and hash. -/
theorem C14_netaddr_eq (a b : NetAddr) :
    (a.eq b = true ↔ a.ip = b.ip ∧ a.port = b.port) ∧ (a.ne b = true ↔ ¬ a.eq b = true) ∧
    (a.eq b = true → a.hash = b.hash) ∧ (a.isNull = true ↔ a.eq NetAddr.null = true) := by
  cases a; cases b
  simp only [NetAddr.eq, NetAddr.ne, NetAddr.hash, NetAddr.isNull, NetAddr.null]
  refine ⟨by simp, ?_, ?_, by simp⟩
  · simp only [Bool.or_eq_true, bne_iff_ne, Bool.and_eq_true, beq_iff_eq]
    exact Decidable.not_and_iff_or_not.symm
  · simp only [Bool.and_eq_true, beq_iff_eq]
    intro h
    rw [h.1, h.2]

/-- C14, the two byte orders store the same quad and port differently but serialise them the same:
an address built from a resolved host and a port number has that meaning. -/
theorem C14_netaddr_meaning (e : Endian) (resolve) (host : List Char) (port : BitVec (8 * 2))
    (quad : List Byte) (h : resolve (cStr host) = some quad) (h4 : quad.length = 4) :
    ∃ a, NetAddr.ofIpPort e resolve host port = some a ∧ a.meaning e quad port.toNat := by
  refine ⟨⟨memDec e 4 (quad.take 4), htons e port⟩, by simp only [ofIpPort, h], ?_, ?_⟩
  · simp only
    rw [List.take_of_length_le (by omega)]
    have := memEnc_memDec e quad
    rw [h4] at this
    exact this
  · exact memEnc_htons e port

example : (NetAddr.ofIpPort .little (fun _ => some [127, 0, 0, 1]) [] 8080).map
    (fun a => (a.serialize .little DataStream.empty).buffer) = some [127, 0, 0, 1, 0x1f, 0x90] := by decide
example : (NetAddr.ofIpPort .big (fun _ => some [127, 0, 0, 1]) [] 8080).map
    (fun a => (a.serialize .big DataStream.empty).buffer) = some [127, 0, 0, 1, 0x1f, 0x90] := by decide

/-- The full statement of C15. -/
def C15_statement : Prop :=
  ∀ (e : Endian) (resolve : List Char → Option (List Byte)) (s : List Char) (a : NetAddr),
    (∀ h q, resolve h = some q → q.length = 4) → '\x00' ∉ s →
    (NetAddr.ofText e resolve s = some a ↔
      ∃ host port quad, Spec.addrText s host port ∧ resolve host = some quad ∧
        a.meaning e quad port)

/-- C15 is violated: trailing garbage, white space and signs are accepted. -/
theorem C15_violated : ¬ C15_statement := by
  intro h
  have h1 := h .little (fun _ => some [127, 0, 0, 1]) ['a', ':', '8', '0', 'x']
    ⟨0x0100007f, 0x5000⟩ (by intro _ q hq; cases hq; rfl) (by decide)
  obtain ⟨host, port, quad, ⟨digits, h2, h3, h4, h5, -⟩, -⟩ := h1.mp (by decide)
  have key : ∀ (host digits : List Char), ['a', ':', '8', '0', 'x'] = host ++ ':' :: digits →
      ':' ∉ host → digits = ['8', '0', 'x'] := by
    intro host digits he hn
    cases host with
    | nil => simp at he
    | cons c host =>
      simp only [List.cons_append, List.cons.injEq] at he
      obtain ⟨-, he⟩ := he
      cases host with
      | nil => simpa using he.symm
      | cons d host =>
        simp only [List.cons_append, List.cons.injEq] at he
        exact absurd he.1 (by intro hd; subst hd; simp at hn)
  have := key host digits h2 h3
  subst this
  exact absurd (h5 'x' (by simp)) (by decide)

/-- More accepted texts outside the specification: white space, signs, negative zero. -/
theorem C15_violated_more :
    ∀ s ∈ ["h: 80", "h:+80", "h:80:90", "h:80.5"],
      NetAddr.ofText .little (fun _ => some [1, 2, 3, 4]) s.toList = some ⟨0x04030201, 0x5000⟩ := by
  decide

/-- C15, proved part: a text (without NUL characters) is accepted exactly if it has a colon, the part
before the first colon resolves, and the part after it is a lax port text; the stored address is that
quad and that port number.  In particular every text of the specified form is accepted with the
right port, texts without colon, without digits or with a port above 65535 or below 0 are rejected.
Missing for the full statement: rejection of white space, sign and trailing characters. -/
theorem C15_netaddr_text_partial (e : Endian) (resolve : List Char → Option (List Byte))
    (hres : ∀ h q, resolve h = some q → q.length = 4) (s : List Char) (h0 : '\x00' ∉ s) (a : NetAddr) :
    (NetAddr.ofText e resolve s = some a ↔
      ∃ host t port quad, s = host ++ ':' :: t ∧ ':' ∉ host ∧ Spec.laxPort t port ∧
        resolve host = some quad ∧ a.meaning e quad port) ∧
    (∀ host port quad, Spec.addrText s host port → resolve host = some quad →
      ∃ b, NetAddr.ofText e resolve s = some b ∧ b.meaning e quad port) := by
  have meaning_unique : ∀ {q p a b}, NetAddr.meaning e q p a → NetAddr.meaning e q p b → a = b := by
    intro q p a b h1 h2
    have e1 : memEnc e a.ip = memEnc e b.ip := h1.1.trans h2.1.symm
    have e2 : memEnc e a.port = memEnc e b.port := h1.2.trans h2.2.symm
    have e3 := congrArg (memDec e 4) e1
    have e4 := congrArg (memDec e 2) e2
    rw [memDec_memEnc, memDec_memEnc] at e3 e4
    cases a; cases b; simp_all
  have fwd : ∀ host t port quad, s = host ++ ':' :: t → ':' ∉ host → Spec.laxPort t port →
      resolve host = some quad →
      ∃ b, NetAddr.ofText e resolve s = some b ∧ b.meaning e quad port := by
    intro host t port quad hs hh hp hq
    have h0t : '\x00' ∉ t := by intro h; apply h0; rw [hs]; simp [h]
    have h0h : '\x00' ∉ host := by intro h; apply h0; rw [hs]; simp [h]
    obtain ⟨hst, hle⟩ := ((stol_iff t h0t port).trans (laxPort_iff t port)).mpr hp
    have hall : ∀ c ∈ host, (decide (c ≠ ':')) = true := by
      intro c hc; simp only [decide_eq_true_eq]; intro h; subst h; exact hh hc
    have htk : s.takeWhile (fun c => decide (c ≠ ':')) = host := by
      rw [hs, List.takeWhile_append_of_pos hall]; simp
    have hdr : (s.dropWhile (fun c => decide (c ≠ ':'))).drop 1 = t := by
      rw [hs, List.dropWhile_append_of_pos hall]; simp
    obtain ⟨b, hb1, hb2⟩ := C14_netaddr_meaning e resolve host (BitVec.ofNat 16 port) quad
      (by rw [cStr_eq host h0h]; exact hq) (hres _ _ hq)
    refine ⟨b, ?_, ?_⟩
    · have hmem : ':' ∈ s := by rw [hs]; simp
      simp only [NetAddr.ofText, hmem, not_true_eq_false, if_false, htk, hdr, hst]
      rw [if_neg (by omega), if_neg (by omega)]
      simpa using hb1
    · have : (BitVec.ofNat 16 port).toNat = port := by simp; omega
      rw [this] at hb2; exact hb2
  refine ⟨⟨?_, ?_⟩, ?_⟩
  · intro h
    simp only [NetAddr.ofText] at h
    split at h
    · cases h
    · rename_i hmem
      have hmem : ':' ∈ s := Classical.not_not.mp hmem
      have hsplit := List.takeWhile_append_dropWhile (p := fun c => decide (c ≠ ':')) (l := s)
      generalize hh : s.takeWhile (fun c => decide (c ≠ ':')) = host at hsplit h
      generalize hd : s.dropWhile (fun c => decide (c ≠ ':')) = d at hsplit h
      have hnh : ':' ∉ host := by
        intro hc
        rw [← hh] at hc
        have := List.all_eq_true.mp (List.all_takeWhile (p := fun c => decide (c ≠ ':')) (l := s)) _ hc
        simp at this
      cases d with
      | nil => rw [List.append_nil] at hsplit; rw [← hsplit] at hmem; exact absurd hmem hnh
      | cons c t =>
        have hcc : c = ':' := by
          have := List.head?_dropWhile_not (fun c => decide (c ≠ ':')) s
          rw [hd] at this
          simpa using this
        subst hcc
        simp only [List.drop_succ_cons, List.drop_zero] at h
        split at h
        · cases h
        · rename_i p hst
          split at h
          · cases h
          · split at h
            · cases h
            · rename_i hp1 hp2
              have h0t : '\x00' ∉ t := by intro hc; apply h0; rw [← hsplit]; simp [hc]
              have h0h : '\x00' ∉ host := by intro hc; apply h0; rw [← hsplit]; simp [hc]
              have hlax := ((stol_iff t h0t p.toNat).trans (laxPort_iff t p.toNat)).mp ⟨by rw [hst]; congr 1; omega, by omega⟩
              have hr : ∃ quad, resolve host = some quad := by
                simp only [ofIpPort, cStr_eq host h0h] at h
                split at h
                · cases h
                · exact ⟨_, by assumption⟩
              obtain ⟨quad, hq⟩ := hr
              refine ⟨host, t, p.toNat, quad, hsplit.symm, hnh, hlax, hq, ?_⟩
              obtain ⟨b, hb1, hb2⟩ := C14_netaddr_meaning e resolve host (BitVec.ofNat 16 p.toNat) quad
                (by rw [cStr_eq host h0h]; exact hq) (hres _ _ hq)
              have hb3 : some b = some a := hb1.symm.trans h
              cases hb3
              have : (BitVec.ofNat 16 p.toNat).toNat = p.toNat := by simp; omega
              rw [this] at hb2; exact hb2
  · intro ⟨host, t, port, quad, hs, hh, hp, hq, hm⟩
    obtain ⟨b, hb1, hb2⟩ := fwd host t port quad hs hh hp hq
    rw [hb1, meaning_unique hb2 hm]
  · intro host port quad ⟨digits, hs, hh, hne, hdig, hval, hp⟩ hq
    exact fwd host digits port quad hs hh
      ⟨[], [], digits, [], by simp, by simp, .inl rfl, hne, hdig, by simp, hval, hp⟩ hq

/-- In particular the usual text of an address. -/
theorem C15_decimal (e : Endian) (resolve : List Char → Option (List Byte)) (hres : ∀ h q, resolve h = some q → q.length = 4)
    (host : List Char) (quad : List Byte) (hh : ':' ∉ host) (h0 : '\x00' ∉ host) (hq : resolve host = some quad) (port : Nat) (hp : port ≤ 65535) :
    ∃ a, NetAddr.ofText e resolve (host ++ ':' :: Nat.toDigits 10 port) = some a ∧ a.meaning e quad port := by
  have hd : ∀ c ∈ Nat.toDigits 10 port, c ∈ Spec.digits := by
    intro c hc
    have := Nat.isDigit_of_mem_toDigits (by decide) (by decide) hc
    rw [← digit_iff]
    simp only [Char.isDigit, Bool.and_eq_true, decide_eq_true_eq, ge_iff_le, UInt32.le_iff_toNat_le] at this
    simp only [isDigit, Bool.and_eq_true, decide_eq_true_eq]
    exact this
  refine (C15_netaddr_text_partial e resolve hres _ ?_ ⟨0, 0⟩).2 host port quad
    ⟨_, rfl, hh, Nat.toDigits_ne_nil, hd, ?_, hp⟩ hq
  · simp only [List.mem_append, List.mem_cons, not_or]
    exact ⟨h0, by decide, fun h => absurd (hd _ h) (by decide)⟩
  · rw [← decValue_eq hd]
    exact Nat.ofDigitChars_ten_toDigits

/-- Non-vacuity: a text of the specified form, and its parse. -/
example : Spec.addrText "127.0.0.1:8080".toList "127.0.0.1".toList 8080 ∧
    NetAddr.ofText .little (fun _ => some [127, 0, 0, 1]) "127.0.0.1:8080".toList
      = some ⟨0x0100007f, 0x901f⟩ ∧
    NetAddr.ofText .little (fun _ => some [127, 0, 0, 1]) "127.0.0.1:65536".toList = none := by
  refine ⟨⟨"8080".toList, by decide, by decide, by decide, by decide, by decide, by decide⟩,
    by decide, by decide⟩

end Salticidae
