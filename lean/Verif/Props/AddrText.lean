import Verif.Model.AddrText
import Verif.Spec.AddrText
import Verif.Props.NetAddr
import Verif.Props.Stamp
/-!
C135: the text of an address.
-/
namespace Salticidae
namespace AddrText
open Spec.AddrText

theorem head_zero (n : Nat) : (Nat.toDigits 10 n).head? = some '0' → n = 0 := by
  induction n using Nat.strongRecOn with
  | _ n ih =>
    intro h
    by_cases hn : n < 10
    · rw [Nat.toDigits_of_lt_base hn] at h
      match n, hn with
      | 0, _ => rfl
      | 1, _ | 2, _ | 3, _ | 4, _ | 5, _ | 6, _ | 7, _ | 8, _ | 9, _ => revert h; decide
    · rw [Nat.toDigits_of_base_le (by decide) (by omega)] at h
      rw [List.head?_append, Option.or_of_isSome (by simp [List.isSome_head?, Nat.toDigits_ne_nil])] at h
      have := ih (n / 10) (by omega) h
      omega

theorem number_toString (n : Nat) : Number (toString n) n :=
  ⟨Nat.toDigits_ne_nil, Stamp.toDigits_digits n, Stamp.decimal_toDigits n, fun h => by
    have := head_zero n h
    subst this; rfl⟩

theorem split_first {c : Char} : ∀ {x x' y y' : List Char}, c ∉ x → c ∉ x' → x ++ c :: y = x' ++ c :: y' → x = x' ∧ y = y'
  | [], [], _, _, _, _, h => by simpa using h
  | [], b :: x', _, _, _, h', h => by
    simp only [List.nil_append, List.cons_append, List.cons.injEq] at h
    exact absurd (h.1 ▸ List.mem_cons_self) h'
  | a :: x, [], _, _, h', _, h => by
    simp only [List.nil_append, List.cons_append, List.cons.injEq] at h
    exact absurd (h.1 ▸ List.mem_cons_self) h'
  | a :: x, b :: x', _, _, h1, h2, h => by
    simp only [List.cons_append, List.cons.injEq] at h
    have := split_first (fun m => h1 (List.mem_cons_of_mem _ m)) (fun m => h2 (List.mem_cons_of_mem _ m)) h.2
    exact ⟨by rw [h.1, this.1], this.2⟩

theorem not_mem_of_number {s : List Char} {n : Nat} {c : Char} (hs : Number s n) (hc : c ∉ Spec.digits) : c ∉ s :=
  fun h => hc (hs.2.1 c h)

theorem number_unique {s : List Char} {m n : Nat} (h : Number s m) (h' : Number s n) : m = n :=
  h.2.2.1.symm.trans h'.2.2.1

theorem not_mem_of_quad {s : List Char} {q : List Byte} {c : Char} (hs : Quad s q) (hc : c ∉ Spec.digits) (hd : c ≠ '.') : c ∉ s := by
  obtain ⟨a, b, c', d, sa, sb, sc, sd, -, rfl, h1, h2, h3, h4⟩ := hs
  have e : ".".toList = ['.'] := by decide
  simp only [e, List.mem_append, List.mem_singleton, not_or]
  exact ⟨⟨⟨⟨⟨⟨not_mem_of_number h1 hc, hd⟩, not_mem_of_number h2 hc⟩, hd⟩, not_mem_of_number h3 hc⟩, hd⟩, not_mem_of_number h4 hc⟩

/-- What is written has one reading only. -/
theorem quad_unique {s : List Char} {q q' : List Byte} (h : Quad s q) (h' : Quad s q') : q = q' := by
  obtain ⟨a, b, c, d, sa, sb, sc, sd, rfl, hs, h1, h2, h3, h4⟩ := h
  obtain ⟨a', b', c', d', sa', sb', sc', sd', rfl, hs', h1', h2', h3', h4'⟩ := h'
  have e : ".".toList = ['.'] := by decide
  have nd : '.' ∉ Spec.digits := by decide
  rw [hs'] at hs
  simp only [e, List.append_assoc, List.singleton_append] at hs
  have r1 := split_first (not_mem_of_number h1' nd) (not_mem_of_number h1 nd) hs
  have r2 := split_first (not_mem_of_number h2' nd) (not_mem_of_number h2 nd) r1.2
  have r3 := split_first (not_mem_of_number h3' nd) (not_mem_of_number h3 nd) r2.2
  obtain ⟨rfl, -⟩ := r1
  obtain ⟨rfl, -⟩ := r2
  obtain ⟨rfl, rfl⟩ := r3
  have := BitVec.eq_of_toNat_eq (number_unique h1 h1')
  have := BitVec.eq_of_toNat_eq (number_unique h2 h2')
  have := BitVec.eq_of_toNat_eq (number_unique h3 h3')
  have := BitVec.eq_of_toNat_eq (number_unique h4 h4')
  simp_all

theorem hostPort_unique {s : List Char} {q q' : List Byte} {p p' : Nat} (h : HostPort s q p) (h' : HostPort s q' p') : q = q' ∧ p = p' := by
  obtain ⟨x, y, rfl, hq, hp⟩ := h
  obtain ⟨x', y', hs, hq', hp'⟩ := h'
  have e : ":".toList = [':'] := by decide
  simp only [e, List.append_assoc, List.singleton_append] at hs
  obtain ⟨rfl, rfl⟩ := split_first (not_mem_of_quad hq (by decide) (by decide)) (not_mem_of_quad hq' (by decide) (by decide)) hs
  exact ⟨quad_unique hq hq', number_unique hp hp'⟩

theorem quad_ntoa : ∀ {q : List Byte}, q.length = 4 → Quad (ntoa q) q
  | [a, b, c, d], _ => ⟨a, b, c, d, toString a.toNat, toString b.toNat, toString c.toNat, toString d.toNat, rfl,
      by simp [ntoa], number_toString _, number_toString _, number_toString _, number_toString _⟩

theorem meaning_unique {e : Endian} {q p a b} (h1 : NetAddr.meaning e q p a) (h2 : NetAddr.meaning e q p b) : a = b := by
  have e1 : memEnc e a.ip = memEnc e b.ip := h1.1.trans h2.1.symm
  have e2 : memEnc e a.port = memEnc e b.port := h1.2.trans h2.2.symm
  have e3 := congrArg (memDec e 4) e1
  have e4 := congrArg (memDec e 2) e2
  rw [memDec_memEnc, memDec_memEnc] at e3 e4
  cases a; cases b; simp_all

theorem htons_htons (e : Endian) (p : BitVec (8 * 2)) : htons e (htons e p) = p := by
  cases e
  · exact bswap_bswap p
  · rfl

/-- Every address has a meaning. -/
theorem meaning_self (e : Endian) (a : NetAddr) : a.meaning e (memEnc e a.ip) (htons e a.port).toNat := by
  refine ⟨rfl, ?_⟩
  have := memEnc_htons e (htons e a.port)
  rwa [htons_htons] at this

theorem hostPort_inner (e : Endian) (a : NetAddr) : HostPort (inner e a) (memEnc e a.ip) (htons e a.port).toNat :=
  ⟨_, _, by simp [inner], quad_ntoa (by simp), number_toString _⟩

theorem port_of_meaning {e : Endian} {a : NetAddr} {q : List Byte} {p : Nat} (hp : p ≤ 65535) (h : a.meaning e q p) :
    (htons e a.port).toNat = p := by
  have h1 := memEnc_htons e (BitVec.ofNat (8 * 2) p)
  have hn : (BitVec.ofNat (8 * 2) p).toNat = p := by
    rw [BitVec.toNat_ofNat]; exact Nat.mod_eq_of_lt (by omega)
  rw [hn] at h1
  have h2 := congrArg (memDec e 2) (h.2.trans h1.symm)
  rw [memDec_memEnc, memDec_memEnc] at h2
  rw [h2, htons_htons, hn]

/-- A resolver that knows the addresses in numbers and no other names. -/
noncomputable def numbersOnly (h : List Char) : Option (List Byte) :=
  open Classical in if x : ∃ q, Quad h q then some x.choose else none

theorem numbersOnly_numeric : Numeric numbersOnly := by
  intro h q hq
  have x : ∃ q, Quad h q := ⟨q, hq⟩
  simp only [numbersOnly, x, ↓reduceDIte, Option.some.injEq]
  exact quad_unique x.choose_spec hq

theorem numbersOnly_length : ∀ h q, numbersOnly h = some q → q.length = 4 := by
  intro h q hq
  simp only [numbersOnly] at hq
  split at hq
  · rename_i x
    obtain ⟨a, b, c, d, _, _, _, _, e, _⟩ := x.choose_spec
    simp only [Option.some.injEq] at hq
    rw [← hq, e]; rfl
  · simp at hq

theorem inner_cancel {p x y z : List Char} (h : p ++ x ++ z = p ++ y ++ z) : x = y :=
  List.append_cancel_left (List.append_cancel_right h)

end AddrText
open AddrText Spec.AddrText

/-- The text of the address `quad`, `port` is `<NetAddr a.b.c.d:port>`, on hosts of either byte order. -/
theorem C135_text (e : Endian) (a : NetAddr) (quad : List Byte) (port : Nat) (hp : port ≤ 65535) (h : a.meaning e quad port) :
    ∃ s, HostPort s quad port ∧ text e a = "<NetAddr ".toList ++ s ++ ">".toList := by
  refine ⟨inner e a, ?_, rfl⟩
  have := hostPort_inner e a
  rwa [port_of_meaning hp h, h.1] at this

/-- Two addresses with the same text are the same address, also when the texts come from hosts of different byte order. -/
theorem C135_distinct (e e' : Endian) (a b : NetAddr) (h : text e a = text e' b) :
    (∀ quad port, port ≤ 65535 → a.meaning e quad port → b.meaning e' quad port) ∧ (e = e' → a = b) := by
  have hi : inner e a = inner e' b := by
    exact inner_cancel h
  have hu := hostPort_unique (hostPort_inner e a) (hi ▸ hostPort_inner e' b)
  have hb := meaning_self e' b
  rw [← hu.1, ← hu.2] at hb
  refine ⟨fun quad port hp hm => ?_, ?_⟩
  · rw [port_of_meaning hp hm, hm.1] at hb
    exact hb
  · rintro rfl
    exact meaning_unique (meaning_self e a) hb

/-- The full property: the constructor from text takes the text of an address for that address. -/
def C135_statement : Prop :=
  ∀ (e : Endian) (resolve : List Char → Option (List Byte)), Numeric resolve → (∀ h q, resolve h = some q → q.length = 4) →
    ∀ a, NetAddr.ofText e resolve (text e a) = some a

/-- What holds: without `<NetAddr ` and `>` it does.  Missing: the text as it is (`C135_violated`). -/
theorem C135_roundtrip_partial (e : Endian) (resolve : List Char → Option (List Byte)) (hn : Numeric resolve)
    (hres : ∀ h q, resolve h = some q → q.length = 4) (a : NetAddr) (s : List Char)
    (hs : text e a = "<NetAddr ".toList ++ s ++ ">".toList) : NetAddr.ofText e resolve s = some a := by
  have hi : inner e a = s := by
    exact inner_cancel hs
  have hq : Quad (ntoa (memEnc e a.ip)) (memEnc e a.ip) := quad_ntoa (by simp)
  obtain ⟨b, hb, hm⟩ := C15_decimal e resolve hres (ntoa (memEnc e a.ip)) (memEnc e a.ip)
    (not_mem_of_quad hq (by decide) (by decide)) (not_mem_of_quad hq (by decide) (by decide)) (hn _ _ hq)
    (htons e a.port).toNat (by have := (htons e a.port).isLt; omega)
  rw [← hi]
  exact hb.trans (congrArg some (meaning_unique hm (meaning_self e a)))

/-- Non-vacuity: there is such a resolver, and with it the text inside is read back. -/
example : Numeric numbersOnly ∧ (∀ h q, numbersOnly h = some q → q.length = 4) ∧
    NetAddr.ofText .little numbersOnly "127.0.0.1:8080".toList = some ⟨0x0100007f, 0x901f⟩ :=
  ⟨numbersOnly_numeric, numbersOnly_length,
    C135_roundtrip_partial .little numbersOnly numbersOnly_numeric numbersOnly_length _ _ (by decide +kernel)⟩

/-- No address is read back from its own text, unless there are hosts with `<` in their names. -/
theorem C135_refused (e : Endian) (resolve : List Char → Option (List Byte)) (hr : ∀ h, '<' ∈ h → resolve h = none) (a : NetAddr) :
    NetAddr.ofText e resolve (text e a) = none := by
  have ht : ∃ r, text e a = '<' :: r := ⟨_, rfl⟩
  obtain ⟨r, ht⟩ := ht
  have hh : ∀ p, NetAddr.ofIpPort e resolve (('<' :: r).takeWhile (· ≠ ':')) p = none := by
    intro p
    have : resolve (cStr (('<' :: r).takeWhile (· ≠ ':'))) = none := by
      apply hr
      rw [List.takeWhile_cons_of_pos (by decide), cStr, List.takeWhile_cons_of_pos (by decide)]
      exact List.mem_cons_self
    simp only [NetAddr.ofIpPort, this]
  rw [ht]
  unfold NetAddr.ofText
  simp only [hh]
  repeat' split
  all_goals rfl

/-- With a resolver that knows numbers only, the text of 0.0.0.0:0 is refused. -/
theorem C135_violated : ¬ C135_statement := by
  intro h
  have h1 := h .little numbersOnly numbersOnly_numeric numbersOnly_length ⟨0, 0⟩
  rw [C135_refused] at h1
  · simp at h1
  · intro s hs
    simp only [numbersOnly]
    split
    · rename_i x
      exact absurd hs (not_mem_of_quad x.choose_spec (by decide) (by decide))
    · rfl

example : String.ofList (text .little ⟨0x0100007f, 0x901f⟩) = "<NetAddr 127.0.0.1:8080>" ∧
    String.ofList (text .big ⟨0x7f000001, 0x1f90⟩) = "<NetAddr 127.0.0.1:8080>" ∧
    NetAddr.meaning .little [127, 0, 0, 1] 8080 ⟨0x0100007f, 0x901f⟩ := by
  refine ⟨by decide +kernel, by decide +kernel, by decide, by decide⟩

end Salticidae
