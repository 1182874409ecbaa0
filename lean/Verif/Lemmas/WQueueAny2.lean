import Verif.Lemmas.WQueueAny
/-
A lost element with blocks of any size: the phases of the execution.
-/
namespace Salticidae
namespace WQ

/-- There is an execution from `c` to `c'` with `n` calls of enqueue. -/
def Go (size : Nat) (c c' : C) (n : Nat) : Prop := ∃ as, c.run size as = some c' ∧ (as.filterMap CAct.call?).length = n

theorem C.run_append {size : Nat} : ∀ (as bs : List CAct) (c : C), c.run size (as ++ bs) = (c.run size as).bind (C.run size · bs)
  | [], bs, c => rfl
  | a :: as, bs, c => by
    simp only [List.cons_append, C.run]
    cases c.step size a with
    | none => rfl
    | some c1 => simpa using C.run_append as bs c1

theorem Go.refl {size : Nat} (c : C) : Go size c c 0 := ⟨[], rfl, rfl⟩

theorem Go.trans {size : Nat} {c c1 c2 : C} {m n : Nat} (h : Go size c c1 m) (k : Go size c1 c2 n) : Go size c c2 (m + n) := by
  obtain ⟨as, h1, h2⟩ := h
  obtain ⟨bs, k1, k2⟩ := k
  exact ⟨as ++ bs, by simp [C.run_append, h1, k1], by simp [h2, k2]⟩

/-- What a step of the producer leaves as it is. -/
structure SameC (c c' : C) : Prop where
  p0 : c'.p0 = c.p0
  nblk : c'.nblk = c.nblk
  nout : c'.nout = c.nout
  mode : c'.mode = c.mode
  gap : c'.gap = c.gap

theorem sameC_iff {c c' : C} : SameC c c' ↔ c'.p0 = c.p0 ∧ c'.nblk = c.nblk ∧ c'.nout = c.nout ∧ c'.mode = c.mode ∧ c'.gap = c.gap :=
  ⟨fun h => ⟨h.1, h.2, h.3, h.4, h.5⟩, fun h => ⟨h.1, h.2.1, h.2.2.1, h.2.2.2.1, h.2.2.2.2⟩⟩

theorem go_of {size : Nat} {c : C} {P : C → Prop} {n : Nat} (as : List CAct) (hn : (as.filterMap CAct.call?).length = n) (h : ∃ c', c.run size as = some c' ∧ P c') :
    ∃ c', Go size c c' n ∧ P c' := by
  obtain ⟨c', h1, h2⟩ := h
  exact ⟨c', ⟨as, h1, hn⟩, h2⟩

theorem run_step {size : Nat} {c c1 : C} {a : CAct} {as : List CAct} {P : C → Prop} (h : c.step size a = some c1) (k : ∃ c', c1.run size as = some c' ∧ P c') :
    ∃ c', c.run size (a :: as) = some c' ∧ P c' := by
  obtain ⟨c', h1, h2⟩ := k
  exact ⟨c', by simp [C.run, h, h1], h2⟩

theorem run_nil {size : Nat} {c : C} {P : C → Prop} (h : P c) : ∃ c', c.run size [] = some c' ∧ P c' := ⟨c, rfl, h⟩

/-- The next step of the execution. -/
macro "nx" : tactic => `(tactic| refine run_step (by simp [C.step, C.ex, C.pc, C.ld, C.wr, C.cas, C.go, C.touch, C.pub, K.next, Weak.Order.releases, upd, ini, *]; exact rfl) ?_)

/-- `_enqueue` with a place left in block `b`. -/
theorem enq {size : Nat} (c : C) (e b j : Nat) (hp : c.p1 = .e0 e) (ht : c.val .tail = b + 1) (hr : c.val (.refcnt b) = 1) (hf : c.val (.freed b) = 0)
    (hj : c.val (.btail b) = j) (hlt : j < size) (hs : c.val .sig ≤ 1) :
    ∃ c', Go size c c' 0 ∧ SameC c c' ∧ c'.p1 = .idle ∧ c'.val .sig = 0 ∧ c'.fd = c.fd + c.val .sig ∧ c'.val (.btail b) = j + 1 ∧ c'.val (.avail b j) = 1 ∧
      ∀ l, l ≠ .sig → l ≠ .btail b → l ≠ .avail b j → c'.val l = c.val l := by
  obtain ⟨val, p0, p1, nblk, fd, nout, mode, gap⟩ := c
  dsimp only at hp ht hr hf hj hs
  subst hp
  have hsz : ¬ size ≤ j := by omega
  have hsig : val .sig = 0 ∨ val .sig = 1 := by omega
  rcases hsig with hsig | hsig
  · refine go_of [.step 1, .step 1, .step 1, .step 1, .step 1, .step 1, .step 1, .step 1, .step 1, .step 1] rfl ?_
    repeat nx
    refine run_nil ?_
    simp [sameC_iff, upd, hsig]
    grind
  · refine go_of [.step 1, .step 1, .step 1, .step 1, .step 1, .step 1, .step 1, .step 1, .step 1, .step 1, .step 1] rfl ?_
    repeat nx
    refine run_nil ?_
    simp [sameC_iff, upd, hsig]
    grind

/-- `n` calls of enqueue with place left in block `b`. -/
theorem fill {size : Nat} (b : Nat) : ∀ (n : Nat) (c : C) (j : Nat), c.p1 = .idle → c.val .tail = b + 1 → c.val (.refcnt b) = 1 → c.val (.freed b) = 0 →
    c.val (.btail b) = j → j + n ≤ size → c.val .sig ≤ 1 →
    ∃ c', Go size c c' n ∧ SameC c c' ∧ c'.p1 = .idle ∧ c'.fd + c'.val .sig = c.fd + c.val .sig ∧ (c'.val .sig = 0 ∨ n = 0 ∧ c'.val .sig = c.val .sig) ∧ c'.val (.btail b) = j + n ∧
      (∀ i, j ≤ i → i < j + n → c'.val (.avail b i) = 1) ∧ (∀ i, i < j → c'.val (.avail b i) = c.val (.avail b i)) ∧
      ∀ l, l ≠ .sig → l ≠ .btail b → (∀ i, l ≠ .avail b i) → c'.val l = c.val l
  | 0, c, j, hp, ht, hr, hf, hj, hn, hs => by
    refine ⟨c, .refl c, ⟨rfl, rfl, rfl, rfl, rfl⟩, hp, rfl, .inr ⟨rfl, rfl⟩, hj, ?_, fun _ _ => rfl, fun _ _ _ _ => rfl⟩
    intro i h1 h2; omega
  | n + 1, c, j, hp, ht, hr, hf, hj, hn, hs => by
    have h0 : Go size c { c with p1 := .e0 7 } 1 := ⟨[.call 7], by simp [C.run, C.step, hp], rfl⟩
    obtain ⟨c1, g1, g2, g3, g4, g5, g6, g7, g8⟩ := enq (size := size) { c with p1 := .e0 7 } 7 b j rfl ht hr hf hj (by omega) hs
    dsimp only at g5 g8
    have f := fun l h1 h2 h3 => g8 l h1 h2 h3
    obtain ⟨c2, k1, k2, k3, k4, k5, k6, k7, k8, k9⟩ := fill (size := size) b n c1 (j + 1) g3 (by rw [f .tail (by simp) (by simp) (by simp)]; exact ht)
      (by rw [f _ (by simp) (by simp) (by simp)]; exact hr) (by rw [f _ (by simp) (by simp) (by simp)]; exact hf) g6 (by omega) (by rw [g4]; omega)
    refine ⟨c2, ?_, ?_, k3, by omega, .inl (by omega), by omega, ?_, ?_, ?_⟩
    · have := (h0.trans g1).trans k1
      rwa [show 1 + 0 + n = n + 1 by omega] at this
    · rw [sameC_iff] at g2 k2 ⊢
      dsimp only at g2
      simp [k2, g2]
    · intro i h1 h2
      by_cases h3 : i = j
      · subst h3; rw [k8 i (by omega)]; exact g7
      · exact k7 i (by omega) (by omega)
    · intro i hi
      rw [k8 i (by omega)]
      have := f (.avail b i) (by simp) (by simp) (by simp; omega)
      exact this
    · intro l h1 h2 h3
      rw [k9 l h1 h2 h3]
      exact f l h1 h2 (h3 j)

/-- What a step of the consumer leaves as it is. -/
structure SameP (c c' : C) : Prop where
  p1 : c'.p1 = c.p1
  nblk : c'.nblk = c.nblk
  fd : c'.fd = c.fd
  mode : c.mode ≤ 1 → c'.mode ≤ 1

theorem sameP_iff {c c' : C} : SameP c c' ↔ c'.p1 = c.p1 ∧ c'.nblk = c.nblk ∧ c'.fd = c.fd ∧ (c.mode ≤ 1 → c'.mode ≤ 1) :=
  ⟨fun h => ⟨h.1, h.2, h.3, h.4⟩, fun h => ⟨h.1, h.2.1, h.2.2.1, h.2.2.2⟩⟩

/-- `try_dequeue` takes an element from block `b`. -/
theorem deq {size : Nat} (c : C) (b j : Nat) (hp : c.p0 = .d0) (hh : c.val .head = b + 1) (hj : c.val (.bhead b) = j) (ht : j < c.val (.btail b)) (ha : c.val (.avail b j) = 1) :
    ∃ c', Go size c c' 0 ∧ SameP c c' ∧ c'.p0 = .d0 ∧ c'.nout = c.nout + 1 ∧ c'.gap = c.gap ∧ c'.val (.bhead b) = j + 1 ∧
      ∀ l, l ≠ .bhead b → l ≠ .avail b j → c'.val l = c.val l := by
  obtain ⟨val, p0, p1, nblk, fd, nout, mode, gap⟩ := c
  dsimp only at hp hh hj ht ha
  subst hp
  have hsz : ¬ val (.btail b) ≤ j := by omega
  refine go_of [.step 0, .step 0, .step 0, .step 0, .step 0, .step 0, .step 0] rfl ?_
  repeat nx
  refine run_nil ?_
  simp [sameP_iff, upd]
  grind

/-- The same from block 0; the store to the head index leaves a gap. -/
theorem deqGap {size : Nat} (c : C) (j : Nat) (hp : c.p0 = .d0) (hh : c.val .head = 1) (hj : c.val B = j) (ht : j < c.val (.btail 0)) (ha : c.val (.avail 0 j) = 1) :
    ∃ c', Go size c c' 0 ∧ SameP c c' ∧ c'.p0 = .d0 ∧ c'.nout = c.nout + 1 ∧ c'.gap = true ∧ c'.val B = j + 1 ∧
      ∀ l, l ≠ B → l ≠ .avail 0 j → c'.val l = c.val l := by
  obtain ⟨val, p0, p1, nblk, fd, nout, mode, gap⟩ := c
  dsimp only at hp hh hj ht ha
  subst hp
  have hsz : ¬ val (.btail 0) ≤ j := by omega
  refine go_of [.step 0, .step 0, .step 0, .gap, .step 0, .step 0, .step 0] rfl ?_
  repeat nx
  refine run_nil ?_
  simp [sameP_iff, upd]
  grind

/-- `n` elements. -/
theorem drain {size : Nat} (b : Nat) : ∀ (n : Nat) (c : C) (j : Nat), c.p0 = .d0 → c.val .head = b + 1 → c.val (.bhead b) = j → j + n ≤ c.val (.btail b) →
    (∀ i, j ≤ i → i < c.val (.btail b) → c.val (.avail b i) = 1) →
    ∃ c', Go size c c' 0 ∧ SameP c c' ∧ c'.p0 = .d0 ∧ c'.nout = c.nout + n ∧ c'.gap = c.gap ∧ c'.val (.bhead b) = j + n ∧
      (∀ i, j + n ≤ i → c'.val (.avail b i) = c.val (.avail b i)) ∧
      ∀ l, l ≠ .bhead b → (∀ i, l ≠ .avail b i) → c'.val l = c.val l
  | 0, c, j, hp, hh, hj, ht, ha => ⟨c, .refl c, ⟨rfl, rfl, rfl, id⟩, hp, rfl, rfl, hj, fun _ _ => rfl, fun _ _ _ => rfl⟩
  | n + 1, c, j, hp, hh, hj, ht, ha => by
    obtain ⟨c1, g1, g2, g3, g4, g5, g6, g7⟩ := deq (size := size) c b j hp hh hj (by omega) (ha j (Nat.le_refl _) (by omega))
    have e1 : c1.val (.btail b) = c.val (.btail b) := g7 _ (by simp) (by simp)
    obtain ⟨c2, k1, k2, k3, k4, k5, k6, k7, k8⟩ := drain (size := size) b n c1 (j + 1) g3 (by rw [g7 _ (by simp) (by simp)]; exact hh) g6 (by omega) (by
      intro i h1 h2
      rw [g7 _ (by simp) (by simp; omega)]
      exact ha i (by omega) (by omega))
    refine ⟨c2, g1.trans k1, ?_, k3, by omega, by rw [k5, g5], by omega, ?_, ?_⟩
    · rw [sameP_iff] at g2 k2 ⊢
      refine ⟨by rw [k2.1, g2.1], by rw [k2.2.1, g2.2.1], by rw [k2.2.2.1, g2.2.2.1], fun h => k2.2.2.2 (g2.2.2.2 h)⟩
    · intro i hi
      rw [k7 i (by omega)]
      exact g7 _ (by simp) (by simp; omega)
    · intro l h1 h2
      rw [k8 l h1 h2]
      exact g7 l h1 (h2 j)

def C.init : C := ⟨ini, .idle, .idle, 1, 0, 0, 0, false⟩

theorem Rel.init : Rel (init 1) C.init where
  mm := ⟨by simp [WQ.init], fun l x _ hx => by
    simp only [WQ.init, Weak.look, Weak.last, List.find?_nil] at hx
    cases hx; rfl, by simp [WQ.init], by simp [C.init]⟩
  ths := ⟨[], [], rfl, ⟨by simp [Weak.View.get], by simp [Weak.View.get], by simp [Weak.View.get]⟩, ⟨by simp [Weak.View.get], by simp [Weak.View.get], by simp [Weak.View.get]⟩⟩
  nblk := rfl
  fd := rfl
  nout := rfl

/-- Block 0 is being filled, the handler is running and has dequeued nothing. -/
structure PhA (j : Nat) (c : C) : Prop where
  p0 : c.p0 = .d0
  p1 : c.p1 = .idle
  nblk : c.nblk = 1
  nout : c.nout = 0
  mode : c.mode ≤ 1
  sig : c.fd + c.val .sig = 1
  head : c.val .head = 1
  tail : c.val .tail = 1
  top : c.val .top = 0
  ref0 : c.val (.refcnt 0) = 1
  ref1 : c.val (.refcnt 1) = 1
  fr0 : c.val (.freed 0) = 0
  bh0 : c.val B = 0
  bt0 : c.val (.btail 0) = j
  bn0 : c.val (.bnext 0) = 0
  av : ∀ i, i < j → c.val (.avail 0 i) = 1

theorem phA1 {size : Nat} (h0 : 0 < size) : ∃ c, Go size C.init c 1 ∧ PhA 1 c := by
  have hs : ¬ size ≤ 0 := by omega
  unfold C.init
  refine go_of [.call 7, .step 1, .step 1, .step 1, .step 1, .step 1, .step 1, .step 1, .step 1, .step 1, .step 1, .step 1, .fire, .step 0, .step 0] rfl ?_
  repeat nx
  refine run_nil ?_
  constructor <;> simp [upd, ini]

theorem phA {size : Nat} (h0 : 0 < size) : ∃ c, Go size C.init c size ∧ PhA size c := by
  obtain ⟨c, h1, h⟩ := phA1 h0
  obtain ⟨c', k1, k2, k3, k4, -, k6, k7, k8, k9⟩ := fill (size := size) 0 (size - 1) c 1 h.p1 h.tail h.ref0 h.fr0 h.bt0 (by omega) (by have := h.sig; omega)
  refine ⟨c', by have := h1.trans k1; rwa [show 1 + (size - 1) = size by omega] at this, ?_⟩
  have f := fun l a b d => k9 l a b d
  constructor
  · rw [k2.p0, h.p0]
  · exact k3
  · rw [k2.nblk, h.nblk]
  · rw [k2.nout, h.nout]
  · rw [k2.mode]; exact h.mode
  · rw [k4, h.sig]
  · rw [f _ (by simp) (by simp) (by simp), h.head]
  · rw [f _ (by simp) (by simp) (by simp), h.tail]
  · rw [f _ (by simp) (by simp) (by simp), h.top]
  · rw [f _ (by simp) (by simp) (by simp), h.ref0]
  · rw [f _ (by simp) (by simp) (by simp), h.ref1]
  · rw [f _ (by simp) (by simp) (by simp), h.fr0]
  · rw [f _ (by simp) (by simp) (by simp), h.bh0]
  · rw [k6]; omega
  · rw [f _ (by simp) (by simp) (by simp), h.bn0]
  · intro i hi
    by_cases h2 : i < 1
    · rw [k8 i h2]; exact h.av i h2
    · exact k7 i (by omega) (by omega)

/-- The producer has linked block 1, and still holds a reference to block 0, from which `j` elements have been dequeued. -/
structure PhB (size j : Nat) (c : C) : Prop where
  p0 : c.p0 = .d0
  p1 : c.p1 = .f0 0 (.retry 7)
  nblk : c.nblk = 2
  nout : c.nout = j
  mode : c.mode ≤ 1
  sig : c.fd + c.val .sig = 1
  head : c.val .head = 1
  tail : c.val .tail = 2
  top : c.val .top = 0
  ref0 : c.val (.refcnt 0) = 2
  ref1 : c.val (.refcnt 1) = 1
  fr1 : c.val (.freed 1) = 0
  bh0 : c.val B = j
  bt0 : c.val (.btail 0) = size
  bn0 : c.val (.bnext 0) = 2
  bh1 : c.val (.bhead 1) = 0
  bt1 : c.val (.btail 1) = 0
  bn1 : c.val (.bnext 1) = 0
  av : ∀ i, j ≤ i → i < size → c.val (.avail 0 i) = 1

theorem phB0 {size : Nat} {c : C} (h : PhA size c) : ∃ c', Go size c c' 1 ∧ PhB size 0 c' := by
  obtain ⟨q1, q2, q3, q4, q5, q6, q7, q8, q9, q10, q11, q12, q13, q14, q15, q16⟩ := h
  obtain ⟨val, p0, p1, nblk, fd, nout, mode, gap⟩ := c
  dsimp only at *
  subst q1 q2 q3
  refine go_of [.call 7, .step 1, .step 1, .step 1, .step 1, .step 1, .step 1, .step 1, .step 1, .step 1, .step 1, .step 1, .step 1, .step 1] rfl ?_
  repeat nx
  refine run_nil ?_
  constructor <;> simp [upd, *]
  exact q16

theorem phB {size : Nat} {c : C} (h0 : 0 < size) (h : PhB size 0 c) : ∃ c', Go size c c' 0 ∧ PhB size size c' ∧ c'.gap = true := by
  obtain ⟨c1, k1, k2, k3, k4, k5, k6, k7, k8⟩ := drain (size := size) 0 (size - 1) c 0 h.p0 h.head h.bh0 (by rw [h.bt0]; omega) (by rw [h.bt0]; exact h.av)
  have f := fun l a b => k8 l a b
  obtain ⟨c2, g1, g2, g3, g4, g5, g6, g7⟩ := deqGap (size := size) c1 (size - 1) k3 (by rw [f _ (by simp) (by simp), h.head]) (by rw [k6]; omega)
    (by rw [f _ (by simp) (by simp), h.bt0]; omega) (by rw [k7 _ (by omega)]; exact h.av _ (by omega) (by omega))
  have e : ∀ l, l ≠ B → (∀ i, l ≠ .avail 0 i) → c2.val l = c.val l := by
    intro l a b; rw [g7 l a (b _), f l a b]
  refine ⟨c2, k1.trans g1, ?_, g5⟩
  constructor
  · exact g3
  · rw [g2.p1, k2.p1, h.p1]
  · rw [g2.nblk, k2.nblk, h.nblk]
  · have := h.nout; omega
  · exact g2.mode (k2.mode h.mode)
  · rw [g2.fd, k2.fd, e _ (by simp) (by simp), h.sig]
  · rw [e _ (by simp) (by simp), h.head]
  · rw [e _ (by simp) (by simp), h.tail]
  · rw [e _ (by simp) (by simp), h.top]
  · rw [e _ (by simp) (by simp), h.ref0]
  · rw [e _ (by simp) (by simp), h.ref1]
  · rw [e _ (by simp) (by simp), h.fr1]
  · omega
  · rw [e _ (by simp) (by simp), h.bt0]
  · rw [e _ (by simp) (by simp), h.bn0]
  · rw [e _ (by simp) (by simp), h.bh1]
  · rw [e _ (by simp) (by simp), h.bt1]
  · rw [e _ (by simp) (by simp), h.bn1]
  · intro i a b; omega

/-- Block 0 is in the free list; block 1 is being filled. -/
structure PhC (size j : Nat) (c : C) : Prop where
  p0 : c.p0 = .d0
  p1 : c.p1 = .idle
  nout : c.nout = size
  mode : c.mode ≤ 1
  gap : c.gap = true
  sig : c.fd + c.val .sig = 1
  head : c.val .head = 2
  tail : c.val .tail = 2
  top : c.val .top = 1
  fn0 : c.val (.fnext 0) = 0
  ref0 : c.val (.refcnt 0) = 1
  ref1 : c.val (.refcnt 1) = 1
  fr1 : c.val (.freed 1) = 0
  bh0 : c.val B = size
  bh1 : c.val (.bhead 1) = 0
  bt1 : c.val (.btail 1) = j
  bn1 : c.val (.bnext 1) = 0
  av : ∀ i, i < j → c.val (.avail 1 i) = 1

theorem phC1 {size : Nat} {c : C} (h0 : 0 < size) (h : PhB size size c) (hg : c.gap = true) : ∃ c', Go size c c' 0 ∧ PhC size 1 c' := by
  obtain ⟨q1, q2, q3, q4, q5, q6, q7, q8, q9, q10, q11, q12, q13, q14, q15, q16, q17, q18, q19⟩ := h
  obtain ⟨val, p0, p1, nblk, fd, nout, mode, gap⟩ := c
  dsimp only at *
  subst q1 q2 q3
  have hs : ¬ size ≤ 0 := by omega
  have hsig : fd = 0 ∧ val .sig = 1 ∨ fd = 1 ∧ val .sig = 0 := by omega
  rcases hsig with ⟨rfl, hsig⟩ | ⟨rfl, hsig⟩
  · refine go_of [.step 0, .step 0, .step 0, .step 0, .step 0, .step 0, .step 0, .step 1, .step 1, .step 1, .step 1, .step 1, .step 1, .step 1, .step 1, .step 1, .step 1, .step 1, .step 1, .step 1, .step 1, .step 1, .step 1] rfl ?_
    repeat nx
    refine run_nil ?_
    constructor <;> simp [upd, *]
  · refine go_of [.step 0, .step 0, .step 0, .step 0, .step 0, .step 0, .step 0, .step 1, .step 1, .step 1, .step 1, .step 1, .step 1, .step 1, .step 1, .step 1, .step 1, .step 1, .step 1, .step 1, .step 1, .step 1] rfl ?_
    repeat nx
    refine run_nil ?_
    constructor <;> simp [upd, *]

theorem phC {size : Nat} {c : C} (h0 : 0 < size) (h : PhC size 1 c) : ∃ c', Go size c c' (size - 1) ∧ PhC size size c' := by
  obtain ⟨c', k1, k2, k3, k4, -, k6, k7, k8, k9⟩ := fill (size := size) 1 (size - 1) c 1 h.p1 h.tail h.ref1 h.fr1 h.bt1 (by omega) (by have := h.sig; omega)
  refine ⟨c', k1, ?_⟩
  have f := fun l a b d => k9 l a b d
  constructor
  · rw [k2.p0, h.p0]
  · exact k3
  · rw [k2.nout, h.nout]
  · rw [k2.mode]; exact h.mode
  · rw [k2.gap, h.gap]
  · rw [k4, h.sig]
  · rw [f _ (by simp) (by simp) (by simp), h.head]
  · rw [f _ (by simp) (by simp) (by simp), h.tail]
  · rw [f _ (by simp) (by simp) (by simp), h.top]
  · rw [f _ (by simp) (by simp) (by simp), h.fn0]
  · rw [f _ (by simp) (by simp) (by simp), h.ref0]
  · rw [f _ (by simp) (by simp) (by simp), h.ref1]
  · rw [f _ (by simp) (by simp) (by simp), h.fr1]
  · rw [f _ (by simp) (by simp) (by simp), h.bh0]
  · rw [f _ (by simp) (by simp) (by simp), h.bh1]
  · rw [k6]; omega
  · rw [f _ (by simp) (by simp) (by simp), h.bn1]
  · intro i hi
    by_cases h2 : i < 1
    · rw [k8 i h2]; exact h.av i h2
    · exact k7 i (by omega) (by omega)

/-- The last element is in block 0, whose head index is too large; `j` elements of block 1 have been dequeued. -/
structure PhD (size j : Nat) (c : C) : Prop where
  p0 : c.p0 = .d0
  p1 : c.p1 = .idle
  nout : c.nout = size + j
  fd : c.fd = 1
  head : c.val .head = 2
  ref1 : c.val (.refcnt 1) = 1
  bh0 : c.val B = size
  bt0 : c.val (.btail 0) = 1
  bn0 : c.val (.bnext 0) = 0
  bh1 : c.val (.bhead 1) = j
  bt1 : c.val (.btail 1) = size
  bn1 : c.val (.bnext 1) = 1
  av : ∀ i, j ≤ i → i < size → c.val (.avail 1 i) = 1

theorem phD0 {size : Nat} {c : C} (h0 : 0 < size) (h : PhC size size c) : ∃ c', Go size c c' 1 ∧ PhD size 0 c' := by
  obtain ⟨q1, q2, q3, q4, q5, q6, q7, q8, q9, q10, q11, q12, q13, q14, q15, q16, q17, q18⟩ := h
  obtain ⟨val, p0, p1, nblk, fd, nout, mode, gap⟩ := c
  dsimp only at *
  subst q1 q2
  have hs : ¬ size ≤ 0 := by omega
  have hsig : fd = 0 ∧ val .sig = 1 ∨ fd = 1 ∧ val .sig = 0 := by omega
  rcases hsig with ⟨rfl, hsig⟩ | ⟨rfl, hsig⟩
  · refine go_of [.call 7, .step 1, .step 1, .step 1, .step 1, .step 1, .step 1, .step 1, .step 1, .step 1, .step 1, .step 1, .step 1, .stale, .step 1, .step 1, .step 1, .step 1, .step 1, .step 1, .step 1, .step 1, .step 1, .step 1, .step 1, .step 1, .step 1, .step 1, .step 1, .step 1, .step 1] rfl ?_
    repeat nx
    refine run_nil ?_
    constructor <;> simp [upd, *]
    exact q18
  · refine go_of [.call 7, .step 1, .step 1, .step 1, .step 1, .step 1, .step 1, .step 1, .step 1, .step 1, .step 1, .step 1, .step 1, .stale, .step 1, .step 1, .step 1, .step 1, .step 1, .step 1, .step 1, .step 1, .step 1, .step 1, .step 1, .step 1, .step 1, .step 1, .step 1, .step 1] rfl ?_
    repeat nx
    refine run_nil ?_
    constructor <;> simp [upd, *]
    exact q18

theorem phD {size : Nat} {c : C} (h : PhD size 0 c) : ∃ c', Go size c c' 0 ∧ PhD size size c' := by
  obtain ⟨c1, k1, k2, k3, k4, k5, k6, k7, k8⟩ := drain (size := size) 1 size c 0 h.p0 h.head h.bh1 (by rw [h.bt1]; omega) (by rw [h.bt1]; exact h.av)
  have f := fun l a b => k8 l a b
  refine ⟨c1, k1, ?_⟩
  constructor
  · exact k3
  · rw [k2.p1, h.p1]
  · have := h.nout; omega
  · rw [k2.fd, h.fd]
  · rw [f _ (by simp) (by simp), h.head]
  · rw [f _ (by simp) (by simp), h.ref1]
  · rw [f _ (by simp) (by simp), h.bh0]
  · rw [f _ (by simp) (by simp), h.bt0]
  · rw [f _ (by simp) (by simp), h.bn0]
  · omega
  · rw [f _ (by simp) (by simp), h.bt1]
  · rw [f _ (by simp) (by simp), h.bn1]
  · intro i a b; omega

/-- The consumer goes on to block 0, takes it for empty, and so does the handler when it is called again. -/
theorem phE {size : Nat} {c : C} (h0 : 0 < size) (h : PhD size size c) : ∃ c', Go size c c' 0 ∧ c'.p0 = .idle ∧ c'.p1 = .idle ∧ c'.fd = 0 ∧ c'.nout = 2 * size := by
  obtain ⟨q1, q2, q3, q4, q5, q6, q7, q8, q9, q10, q11, q12, q13⟩ := h
  obtain ⟨val, p0, p1, nblk, fd, nout, mode, gap⟩ := c
  dsimp only at *
  subst q1 q2 q4
  by_cases hs : size = 1
  · subst hs
    refine go_of [.step 0, .step 0, .step 0, .step 0, .step 0, .step 0, .step 0, .step 0, .step 0, .step 0, .step 0, .step 0, .step 0, .step 0, .step 0, .fire, .step 0, .step 0, .step 0, .step 0, .step 0, .step 0] rfl ?_
    repeat nx
    refine run_nil ?_
    simp
  · have h1 : 1 ≤ size := by omega
    have h2 : 1 < size := by omega
    refine go_of [.step 0, .step 0, .step 0, .step 0, .step 0, .step 0, .step 0, .step 0, .step 0, .step 0, .step 0, .step 0, .step 0, .step 0, .fire, .step 0, .step 0, .step 0, .step 0, .step 0] rfl ?_
    repeat nx
    refine run_nil ?_
    simp
    omega

/-- One producer calls enqueue `2 * size + 1` times; everything has come to rest; `2 * size` elements have been dequeued. -/
theorem lost_any {size : Nat} (h0 : 0 < size) : ∃ as s, run size (init 1) as = some s ∧ (as.filterMap Act.calls).length = 2 * size + 1 ∧
    (∀ th ∈ s.ths, th.pc = .idle) ∧ s.fd = 0 ∧ s.out.length = 2 * size := by
  obtain ⟨c1, a1, b1⟩ := phA h0
  obtain ⟨c2, a2, b2⟩ := phB0 b1
  obtain ⟨c3, a3, b3, g3⟩ := phB h0 b2
  obtain ⟨c4, a4, b4⟩ := phC1 h0 b3 g3
  obtain ⟨c5, a5, b5⟩ := phC h0 b4
  obtain ⟨c6, a6, b6⟩ := phD0 h0 b5
  obtain ⟨c7, a7, b7⟩ := phD b6
  obtain ⟨c8, a8, e1, e2, e3, e4⟩ := phE h0 b7
  obtain ⟨as, h1, h2⟩ := ((((((a1.trans a2).trans a3).trans a4).trans a5).trans a6).trans a7).trans a8
  obtain ⟨as', s, k1, k2, k3⟩ := run_sim as Rel.init h1
  refine ⟨as', s, k1, by rw [k3, h2]; omega, ?_, by rw [k2.fd, e3], by rw [k2.nout, e4]⟩
  obtain ⟨v0, v1, t, -, -⟩ := k2.ths
  rw [t, e1, e2]
  simp

end WQ
end Salticidae
