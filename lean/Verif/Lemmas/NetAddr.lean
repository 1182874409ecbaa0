import Verif.Lemmas.Stream
import Verif.Model.NetAddr
import Verif.Spec.NetAddr
namespace Salticidae

theorem memEnc_htons (e : Endian) (p : BitVec (8 * 2)) :
    memEnc e (htons e p) = (Spec.leEnc 2 p.toNat).reverse := by
  cases e
  · have := memEnc_bswap (bswap p)
    rw [bswap_bswap] at this
    simp only [memEnc] at this ⊢
    simp only [htons]
    rw [← this]
  · rfl

theorem takeWhile_append_all {p : α → Bool} {l r : List α} (hl : ∀ x ∈ l, p x = true) :
    (l ++ r).takeWhile p = l ++ r.takeWhile p := List.takeWhile_append_of_pos hl

theorem NetAddr.unserialize_ok {s : DataStream} (hs : s.Wf) (e : Endian) (a : NetAddr)
    {b4 b2 rest : List Byte} (h4 : b4.length = 4) (h2 : b2.length = 2)
    (hu : s.unread = b4 ++ b2 ++ rest) :
    ∃ t, a.unserialize e s = (⟨memDec e 4 b4, memDec e 2 b2⟩, t, true) ∧ t.Wf ∧ t.unread = rest := by
  have hle : 4 ≤ s.unread.length := by rw [hu]; simp [h4]
  have g1 := DataStream.getInt_ok hs (e := e) hle
  have w1 := DataStream.wf_advance hs hle
  have u1 : ({ s with offset := s.offset + 4 } : DataStream).unread = b2 ++ rest := by
    rw [DataStream.unread_advance, hu, List.append_assoc, List.drop_left' h4]
  have hle2 : 2 ≤ ({ s with offset := s.offset + 4 } : DataStream).unread.length := by
    rw [u1]; simp [h2]
  have g2 := DataStream.getInt_ok w1 (e := e) hle2
  have w2 := DataStream.wf_advance w1 hle2
  refine ⟨_, ?_, w2, ?_⟩
  · have t1 : s.unread.take 4 = b4 := by rw [hu, List.append_assoc, List.take_left' h4]
    have t2 : ({ s with offset := s.offset + 4 } : DataStream).unread.take 2 = b2 := by
      rw [u1, List.take_left' h2]
    simp only [NetAddr.unserialize, g1, g2, t1, t2]
  · rw [DataStream.unread_advance, u1, List.drop_left' h2]

theorem digit_iff (c : Char) : isDigit c = true ↔ c ∈ Spec.digits := by
  have key : ∀ n, n < 10 → (Char.ofNat (48 + n) ∈ Spec.digits) := by decide
  constructor
  · intro h
    simp only [isDigit, Bool.and_eq_true, decide_eq_true_eq] at h
    have h0 : '0'.toNat = 48 := rfl
    have h9 : '9'.toNat = 57 := rfl
    rw [h0, h9] at h
    have := key (c.toNat - 48) (by omega)
    rwa [show 48 + (c.toNat - 48) = c.toNat by omega, Char.ofNat_toNat] at this
  · intro h
    simp only [Spec.digits, List.mem_cons, List.not_mem_nil, or_false] at h
    rcases h with rfl | rfl | rfl | rfl | rfl | rfl | rfl | rfl | rfl | rfl <;> rfl

theorem digit_val {c : Char} (h : c ∈ Spec.digits) : c.toNat - '0'.toNat = Spec.digits.idxOf c := by
  simp only [Spec.digits, List.mem_cons, List.not_mem_nil, or_false] at h
  rcases h with rfl | rfl | rfl | rfl | rfl | rfl | rfl | rfl | rfl | rfl <;> rfl

theorem space_iff (c : Char) : DataStream.isCSpace c = true ↔ c ∈ Spec.spaces := by
  simp [DataStream.isCSpace, Spec.spaces, or_assoc]

theorem decValue_eq {ds : List Char} (h : ∀ c ∈ ds, c ∈ Spec.digits) : decValue ds = Spec.decimal ds := by
  have key : ∀ (ds : List Char) (n : Nat), (∀ c ∈ ds, c ∈ Spec.digits) →
      ds.foldl (fun n c => 10 * n + (c.toNat - '0'.toNat)) n = n * 10 ^ ds.length + Spec.decimal ds := by
    intro ds
    induction ds with
    | nil => intro n _; simp [Spec.decimal]
    | cons c cs ih =>
      intro n h
      rw [List.foldl_cons, ih _ (fun c hc => h c (by simp [hc])), digit_val (h c (by simp)), Spec.decimal, List.length_cons, Nat.pow_succ, Nat.add_mul]
      rw [Nat.mul_comm (10 ^ cs.length) 10, ← Nat.mul_assoc, Nat.mul_comm n 10, Nat.add_assoc]
  simpa [decValue] using key ds 0 h

/-- `Spec.laxPort` in the words of the model. -/
def NetAddr.laxPort (t : List Char) (port : Nat) : Prop :=
  ∃ ws sign digits rest, t = ws ++ sign ++ digits ++ rest ∧ (∀ c ∈ ws, DataStream.isCSpace c = true) ∧
    (sign = [] ∨ sign = ['+'] ∨ (sign = ['-'] ∧ decValue digits = 0)) ∧
    digits ≠ [] ∧ (∀ c ∈ digits, isDigit c = true) ∧ (∀ c, rest.head? = some c → isDigit c = false) ∧
    decValue digits = port ∧ port ≤ 65535

theorem laxPort_iff (t : List Char) (port : Nat) : NetAddr.laxPort t port ↔ Spec.laxPort t port := by
  unfold NetAddr.laxPort Spec.laxPort
  refine exists_congr fun ws => exists_congr fun sign => exists_congr fun ds => exists_congr fun rest => ?_
  have hneg : ∀ c, isDigit c = false ↔ c ∉ Spec.digits := fun c => by rw [← digit_iff]; simp
  simp only [space_iff, digit_iff, hneg]
  constructor
  · rintro ⟨h1, h2, h3, h4, h5, h6, h7, h8⟩
    rw [decValue_eq h5] at h3 h7
    exact ⟨h1, h2, h3, h4, h5, h6, h7, h8⟩
  · rintro ⟨h1, h2, h3, h4, h5, h6, h7, h8⟩
    rw [← decValue_eq h5] at h3 h7
    exact ⟨h1, h2, h3, h4, h5, h6, h7, h8⟩

theorem isDigit_not_space {c : Char} (h : isDigit c = true) : DataStream.isCSpace c = false := by
  simp only [isDigit, Bool.and_eq_true, decide_eq_true_eq] at h
  have h0 : '0'.toNat = 48 := rfl
  have h9 : '9'.toNat = 57 := rfl
  rw [h0, h9] at h
  simp only [DataStream.isCSpace, Bool.or_eq_false_iff, decide_eq_false_iff_not]
  refine ⟨⟨⟨⟨⟨?_, ?_⟩, ?_⟩, ?_⟩, ?_⟩, ?_⟩ <;> intro hc <;> subst hc <;> revert h <;> decide

theorem dropWhile_eq_of_head {p : Char → Bool} {l : List Char}
    (h : ∀ c, l.head? = some c → p c = false) : l.dropWhile p = l := by
  cases l with
  | nil => rfl
  | cons c l => rw [List.dropWhile_cons_of_neg]; simp [h c rfl]

theorem takeWhile_all {p : Char → Bool} (l : List Char) (h : ∀ c ∈ l, p c = true) :
    l.takeWhile p = l := by
  have := List.takeWhile_append_of_pos (l₂ := []) h
  simpa using this

theorem cStr_eq (l : List Char) (hl : '\x00' ∉ l) : cStr l = l := by
  rw [cStr, takeWhile_all]
  intro c hc
  simp only [ne_eq, decide_not, Bool.not_eq_eq_eq_not, Bool.not_true, decide_eq_false_iff_not]
  intro h; subst h; exact hl hc

theorem stripSign_spec (v : List Char) : ∃ sign, v = sign ++ (stripSign v).2 ∧
    ((sign = [] ∧ (stripSign v).1 = false) ∨ (sign = ['+'] ∧ (stripSign v).1 = false) ∨
      (sign = ['-'] ∧ (stripSign v).1 = true)) := by
  cases v with
  | nil => exact ⟨[], rfl, .inl ⟨rfl, rfl⟩⟩
  | cons c u =>
    by_cases h : c = '-'
    · subst h; exact ⟨['-'], rfl, .inr (.inr ⟨rfl, rfl⟩)⟩
    · by_cases h2 : c = '+'
      · subst h2; exact ⟨['+'], rfl, .inr (.inl ⟨rfl, rfl⟩)⟩
      · exact ⟨[], by simp [stripSign, h, h2], .inl ⟨rfl, by simp [stripSign, h, h2]⟩⟩

theorem stol_iff (t : List Char) (h0 : '\x00' ∉ t) (port : Nat) :
    (stol t = some (port : Int) ∧ port ≤ 65535) ↔ NetAddr.laxPort t port := by
  have hc : cStr t = t := cStr_eq t h0
  have hsplit := List.takeWhile_append_dropWhile (p := DataStream.isCSpace) (l := t)
  constructor
  · intro ⟨h, hp⟩
    simp only [stol, hc] at h
    have hws : ∀ c ∈ t.takeWhile DataStream.isCSpace, DataStream.isCSpace c = true :=
      fun c hc' => List.all_eq_true.mp List.all_takeWhile c hc'
    obtain ⟨sign, hv, hs⟩ := stripSign_spec (t.dropWhile DataStream.isCSpace)
    generalize stripSign (t.dropWhile DataStream.isCSpace) = st at h hv hs
    obtain ⟨neg, u⟩ := st
    simp only at h hv hs
    split at h
    · cases h
    · rename_i hne
      have hval : decValue (u.takeWhile isDigit) = port ∧
          (neg = true → decValue (u.takeWhile isDigit) = 0) := by
        rw [Option.ite_none_left_eq_some] at h
        have h := h.2
        simp only [Option.some.injEq] at h
        cases neg <;> simp at h ⊢ <;> omega
      refine ⟨t.takeWhile DataStream.isCSpace, sign, u.takeWhile isDigit, u.dropWhile isDigit, ?_, hws,
        ?_, hne, fun c hc' => List.all_eq_true.mp List.all_takeWhile c hc', ?_, hval.1, hp⟩
      · rw [List.append_assoc, List.takeWhile_append_dropWhile, List.append_assoc, ← hv, hsplit]
      · rcases hs with h | h | h
        · exact .inl h.1
        · exact .inr (.inl h.1)
        · exact .inr (.inr ⟨h.1, hval.2 h.2⟩)
      · intro c hc'
        have := List.head?_dropWhile_not isDigit u
        rw [hc'] at this
        simpa using this
  · intro ⟨ws, sign, digits, rest, ht, hws, hsign, hne, hdig, hrest, hval, hp⟩
    refine ⟨?_, hp⟩
    obtain ⟨d0, ds, hd⟩ := List.exists_cons_of_ne_nil hne
    have hd0 : isDigit d0 = true := hdig d0 (by rw [hd]; simp)
    have htake : (digits ++ rest).takeWhile isDigit = digits := by
      rw [List.takeWhile_append_of_pos hdig]
      cases rest with
      | nil => simp
      | cons r rest => rw [List.takeWhile_cons_of_neg (by simp [hrest r rfl])]; simp
    have hdrop : t.dropWhile DataStream.isCSpace = sign ++ digits ++ rest := by
      rw [ht, List.append_assoc, List.append_assoc, List.dropWhile_append_of_pos hws]
      rw [← List.append_assoc]
      apply dropWhile_eq_of_head
      intro c hc'
      rcases hsign with h | h | h
      · subst h; rw [hd] at hc'; simp only [List.nil_append, List.cons_append, List.head?_cons,
          Option.some.injEq] at hc'; subst hc'; exact isDigit_not_space hd0
      · subst h; simp only [List.cons_append, List.head?_cons, Option.some.injEq] at hc'
        subst hc'; decide
      · rw [h.1] at hc'; simp only [List.cons_append, List.head?_cons, Option.some.injEq] at hc'
        subst hc'; decide
    simp only [stol, hc, hdrop]
    rcases hsign with h | h | h
    · subst h
      have hm : stripSign ([] ++ digits ++ rest) = (false, digits ++ rest) := by
        have h1 : d0 ≠ '-' := by intro h; subst h; exact absurd hd0 (by decide)
        have h2 : d0 ≠ '+' := by intro h; subst h; exact absurd hd0 (by decide)
        rw [hd]; simp [stripSign, h1, h2]
      simp only [hm, htake, hne, if_false, hval, Bool.false_eq_true]
      rw [if_neg (by omega)]
    · subst h
      have hm : stripSign (['+'] ++ digits ++ rest) = (false, digits ++ rest) := by simp [stripSign]
      simp only [hm, htake, hne, if_false, hval, Bool.false_eq_true]
      rw [if_neg (by omega)]
    · rw [h.1]
      have : port = 0 := by omega
      subst this
      have hm : stripSign (['-'] ++ digits ++ rest) = (true, digits ++ rest) := by simp [stripSign]
      simp only [hm, htake, hne, if_false, if_true, h.2]
      decide

end Salticidae
