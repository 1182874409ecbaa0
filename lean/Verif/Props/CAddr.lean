import Verif.Model.CAddr
import Verif.Props.AddrText
/-!
C136: addresses in the C interface.
-/
namespace Salticidae
open CAddr

/-- The full property: the port of an address is the one it was made with. -/
def C136_statement : Prop :=
  ∀ (e : Endian) (resolve : List Char → Option (List Byte)) (host : List Char) (port : BitVec (8 * 2)) (a : NetAddr),
    fromSipPort e resolve host port = some a → getPort a = port

/-- What holds: the port that is returned lies in memory with its high byte first, whatever the host; so it is the port given on hosts that
store numbers that way, and on the others exactly for ports whose two bytes are equal.  Missing: the other ports (`C136_violated`). -/
theorem C136_port_partial (e : Endian) (resolve : List Char → Option (List Byte)) (host : List Char) (port : BitVec (8 * 2)) (a : NetAddr)
    (h : fromSipPort e resolve host port = some a) :
    memEnc e (getPort a) = (Spec.leEnc 2 port.toNat).reverse ∧
    (getPort a = port ↔ e = .big ∨ port.toNat / 256 = port.toNat % 256) := by
  have hp : getPort a = htons e port := by
    simp only [fromSipPort, NetAddr.ofIpPort] at h
    split at h
    · simp at h
    · simp only [Option.some.injEq] at h
      rw [← h]; rfl
  refine ⟨by rw [hp]; exact memEnc_htons e port, ?_⟩
  rw [hp]
  cases e
  · have h1 := memEnc_htons .little port
    have hl : port.toNat < 65536 := port.isLt
    have hb : ∀ m n : Nat, BitVec.ofNat 8 m = BitVec.ofNat 8 n ↔ m % 256 = n % 256 := by
      intro m n
      rw [← BitVec.toNat_inj, BitVec.toNat_ofNat, BitVec.toNat_ofNat]
    have hk : htons .little port = port ↔ memEnc .little (htons .little port) = memEnc .little port := by
      refine ⟨fun x => by rw [x], fun x => ?_⟩
      have := congrArg (memDec .little 2) x
      rwa [memDec_memEnc, memDec_memEnc] at this
    rw [hk, h1]
    simp only [memEnc, Spec.leEnc, List.reverse_cons, List.reverse_nil, List.nil_append, List.cons_append, List.cons.injEq, hb, reduceCtorEq, false_or, and_true]
    omega
  · simp [htons]

/-- On hosts that store the low byte first the port comes back with its bytes swapped. -/
theorem C136_violated : ¬ C136_statement := by
  intro h
  exact absurd (h .little (fun _ => some [127, 0, 0, 1]) [] 8080 ⟨0x0100007f, 0x901f⟩ (by decide)) (by decide)

/-- The address and the port that are returned make the same address again. -/
theorem C136_rebuild (a b : NetAddr) : (fromIpPort (getIp a) (getPort a) = a) ∧ (getIp a = getIp b → getPort a = getPort b → a = b) := by
  refine ⟨rfl, fun h1 h2 => ?_⟩
  cases a; cases b; simp_all [getIp, getPort]

/-- The two ways to name a host and a port agree. -/
theorem C136_agree (e : Endian) (resolve : List Char → Option (List Byte)) (hres : ∀ h q, resolve h = some q → q.length = 4)
    (host : List Char) (hh : ':' ∉ host) (h0 : '\x00' ∉ host) (hq : resolve host ≠ none) (port : Nat) (hp : port ≤ 65535) :
    ∃ a, fromSipport e resolve (host ++ ':' :: Nat.toDigits 10 port) = some a ∧ fromSipPort e resolve host (BitVec.ofNat _ port) = some a := by
  obtain ⟨q, hq⟩ := Option.ne_none_iff_exists'.mp hq
  obtain ⟨a, ha, hm⟩ := C15_decimal e resolve hres host q hh h0 hq port hp
  have hc : cStr host = host := by
    have : ∀ l : List Char, '\x00' ∉ l → cStr l = l := by
      intro l
      induction l with
      | nil => intro _; rfl
      | cons c l ih =>
        intro hl
        simp only [List.mem_cons, not_or] at hl
        have := ih hl.2
        simp only [cStr] at this
        rw [cStr, List.takeWhile_cons_of_pos (by simpa using Ne.symm hl.1), this]
    exact this host h0
  obtain ⟨b, hb, hm'⟩ := C14_netaddr_meaning e resolve host (BitVec.ofNat (8 * 2) port) q (by rw [hc]; exact hq) (hres _ _ hq)
  have hn : (BitVec.ofNat (8 * 2) port).toNat = port := by
    rw [BitVec.toNat_ofNat]; exact Nat.mod_eq_of_lt (by omega)
  rw [hn] at hm'
  refine ⟨a, ha, ?_⟩
  rw [AddrText.meaning_unique hm hm']
  exact hb

/-- Non-vacuity: a port with equal bytes, a port without, and a host found both ways. -/
example : (fromSipPort .little (fun _ => some [127, 0, 0, 1]) [] 0x1111).map getPort = some 0x1111 ∧
    (fromSipPort .little (fun _ => some [127, 0, 0, 1]) [] 80).map getPort = some 20480 ∧
    (fromSipPort .big (fun _ => some [127, 0, 0, 1]) [] 80).map getPort = some 80 ∧
    fromSipport .little (fun _ => some [127, 0, 0, 1]) "localhost:80".toList = fromSipPort .little (fun _ => some [127, 0, 0, 1]) "localhost".toList 80 := by
  refine ⟨by decide, by decide, by decide, by decide +kernel⟩

end Salticidae
