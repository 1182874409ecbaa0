import Verif.Model.WQueue
import Verif.Lemmas.Weak
/-
Executions of the event-driven queue with one producer in which every load reads the last value: they can be followed on a memory with one value per location (`C`).  Two
exceptions: `gap`, a store of the consumer to the head index of block 0 that leaves a free place before it, and `stale`, a store of the producer that takes this place.
-/
namespace Salticidae
namespace WQ
open Weak

/-- The head index of block 0. -/
abbrev B : Loc := .bhead 0

def isElem : Loc → Bool
  | .elem _ _ => true
  | _ => false

/-- mode 0: the consumer knows nothing of B; 1: nothing of what the producer can learn comes after a store to B; 2: no matter. -/
structure C where
  val : Loc → Nat
  p0 : Pc
  p1 : Pc
  nblk : Nat
  fd : Nat
  nout : Nat
  mode : Nat
  gap : Bool

def upd (f : Loc → Nat) (l : Loc) (x : Nat) : Loc → Nat := fun k => if k = l then x else f k

def C.pc (c : C) (i : Nat) : Pc := if i = 0 then c.p0 else c.p1
def C.go (c : C) (i : Nat) (p : Pc) : C := if i = 0 then { c with p0 := p } else { c with p1 := p }

def C.touch (c : C) (i : Nat) (l : Loc) : Nat := if i = 0 ∧ l = B then max 1 c.mode else c.mode
def C.pub (c : C) (i : Nat) (o : Order) (l : Loc) : Nat := if i = 0 ∧ o.releases = true ∧ c.touch i l ≠ 0 then max 2 c.mode else c.touch i l

def C.ld (c : C) (i : Nat) (l : Loc) (k : Nat → Pc) : Option C :=
  if i ≠ 0 ∧ l = B then none else some (C.go { c with mode := c.touch i l } i (k (c.val l)))

def C.wr (c : C) (i : Nat) (o : Order) (l : Loc) (x : Nat) (k : Pc) : Option C :=
  if i ≠ 0 ∧ l = B then none else some (C.go { c with val := upd c.val l x, mode := c.pub i o l } i k)

/-- A compare-and-swap that succeeds if it can. -/
def C.cas (c : C) (i : Nat) (o : Order) (l : Loc) (x y : Nat) (yes : Pc) : Option C :=
  if c.val l = x then c.wr i o l y yes else none

/-- The next access of thread `i`, at the end of the modification order. -/
def C.ex (size : Nat) (c : C) (i : Nat) : Option C :=
  match c.pc i with
  | .e0 e => c.ld i .tail fun t => .e1 e (t - 1)
  | .e1 e t => c.ld i (.refcnt t) fun n => if n = 0 then .e0 e else .e2 e t n
  | .e2 e t n => c.cas i .rlx (.refcnt t) n (n + 1) (.e3 e t)
  | .e3 e t => c.ld i (.freed t) fun x => if x = 1 then .f0 t (.retry e) else .e4 e t
  | .e4 e t => c.ld i (.btail t) fun tt => if size ≤ tt then .e5 e t else .ec e t tt
  | .e5 e t => c.ld i (.bnext t) fun n => if n = 0 then .p0 e t else .f0 t (.retry e)
  | .p0 e t =>
    if c.val .top = 0 then some (C.go { c with nblk := c.nblk + 1 } i (.i1 e t c.nblk))
    else some (c.go i (.p1 e t (c.val .top - 1)))
  | .p1 e t u => c.ld i (.refcnt u) fun n => if n = 0 then .p0 e t else .p2 e t u n
  | .p2 e t u n => c.cas i .rlx (.refcnt u) n (n + 1) (.p3 e t u)
  | .p3 e t u => c.ld i (.fnext u) fun x => .p4 e t u x
  | .p4 e t u x => c.cas i .rlx .top (u + 1) x (.f0 u (.got e t u))
  | .i1 e t n => c.wr i .rlx (.bhead n) 0 (.i2 e t n)
  | .i2 e t n => c.wr i .rlx (.btail n) 0 (.i3 e t n)
  | .i3 e t n => c.wr i .rlx (.bnext n) 0 (.e9 e t n)
  | .e9 e t n => c.cas i .acqRel (.bnext t) 0 (n + 1) (.ea e t n)
  | .ea e t n => c.wr i .rel .tail (n + 1) (.eb e t n)
  | .eb e t n => c.wr i .rel (.freed n) 0 (.f0 t (.retry e))
  | .pu u k => c.wr i .rlx (.freed u) 1 (.f0 u k)
  | .f0 u k => c.wr i .rlx (.refcnt u) (c.val (.refcnt u) - 1) (if c.val (.refcnt u) ≠ 1 then k.next else .f1 u k)
  | .f1 u k => c.ld i .top fun x => .f2 u k x
  | .f2 u k x => c.wr i .rlx (.fnext u) x (.f3 u k x)
  | .f3 u k x => c.cas i .rel .top x (u + 1) (.f4 u k)
  | .f4 u k => c.wr i .rlx (.refcnt u) 1 k.next
  | .ec e t tt => c.cas i .rlx (.btail t) tt (tt + 1) (.ed e t tt)
  | .ed e t tt => some (c.go i (.ee e t tt))
  | .ee _ t tt => c.wr i .rel (.avail t tt) 1 (.f0 t (.fin tt))
  | .x _ => c.wr i .acqRel .sig 0 (if c.val .sig = 1 then .nt else .idle)
  | .nt => some (C.go { c with fd := c.fd + 1 } i .idle)
  | .c0 => some (C.go { c with fd := 0 } i .c1)
  | .c1 => c.wr i .acqRel .sig 1 .d0
  | .d0 => c.ld i .head fun h => .d1 (h - 1)
  | .d1 h => c.ld i (.bhead h) fun hh => .d2 h hh
  | .d2 h hh => c.ld i (.btail h) fun tt => if tt ≤ hh then if tt < size then .idle else .d3 h else .d5 h hh
  | .d3 h => c.ld i (.bnext h) fun n => if n = 0 then .idle else .d4 h (n - 1)
  | .d4 h n => c.wr i .rlx .head (n + 1) (.pu h .deq)
  | .d5 h hh => c.wr i .rlx (.bhead h) (hh + 1) (.d6 h hh)
  | .d6 h hh => c.ld i (.avail h hh) fun a => if a = 1 then .d7 h hh else .d6 h hh
  | .d7 h hh => some (C.go { c with nout := c.nout + 1 } i (.d8 h hh))
  | .d8 h hh => c.wr i .rlx (.avail h hh) 0 .d0
  | _ => none

inductive CAct where
  | call (e : Nat)
  | step (i : Nat)
  | fire
  | gap
  | stale

def C.step (size : Nat) (c : C) : CAct → Option C
  | .call e => if c.p1 = .idle then some { c with p1 := .e0 e } else none
  | .step i => if i ≤ 1 then c.ex size i else none
  | .fire => if c.p0 = .idle ∧ 0 < c.fd then some { c with p0 := .c0 } else none
  | .gap => match c.p0 with
    | .d5 0 hh => some { c with val := upd c.val B (hh + 1), mode := max 1 c.mode, gap := true, p0 := .d6 0 hh }
    | _ => none
  | .stale => match c.p1 with
    | .i1 e t 0 => if c.mode ≤ 1 ∧ c.gap = true then some { c with p1 := .i2 e t 0, gap := false, mode := 2 } else none
    | _ => none

def C.run (size : Nat) : C → List CAct → Option C
  | c, [] => some c
  | c, a :: as => (c.step size a).bind (C.run size · as)

/-- The memory has these last values. -/
structure Mm (m : Mem Loc) (val : Loc → Nat) (mode : Nat) (gap : Bool) : Prop where
  bound : ∀ x ∈ m, ∀ l, x.view.get l ≤ last m l
  vals : ∀ l x, isElem l = false → look ini m l (last m l) = some x → x.val = val l
  clean : mode ≤ 1 → ∀ x ∈ m, x.loc ≠ B → x.view.get B = 0
  gaps : gap = true → ∃ t, 0 < t ∧ t < last m B ∧ look ini m B t = none

/-- The view of thread `i`. -/
structure Vw (m : Mem Loc) (v : View Loc) (i mode : Nat) : Prop where
  bound : ∀ l, v.get l ≤ last m l
  cons : i = 0 → mode = 0 → v.get B = 0
  prod : i ≠ 0 → mode ≤ 1 → v.get B = 0

structure Rel (s : St) (c : C) : Prop where
  mm : Mm s.mem c.val c.mode c.gap
  ths : ∃ v0 v1, s.ths = [⟨v0, c.p0⟩, ⟨v1, c.p1⟩] ∧ Vw s.mem v0 0 c.mode ∧ Vw s.mem v1 1 c.mode
  nblk : s.nblk = c.nblk
  fd : s.fd = c.fd
  nout : s.out.length = c.nout

theorem last_cons (x : Msg Loc) (m : Mem Loc) (l : Loc) : last (x :: m) l = if x.loc = l then max x.ts (last m l) else last m l := rfl

theorem last_mono (x : Msg Loc) (m : Mem Loc) (l : Loc) : last m l ≤ last (x :: m) l := by
  rw [last_cons]; split <;> omega

theorem look_mem {m : Mem Loc} {l : Loc} {t : Nat} {x : Msg Loc} (h : look ini m l t = some x) : x ∈ m ∨ x.view = [] := by
  unfold look at h
  split at h
  · rename_i y hy; cases h; exact .inl (List.mem_of_find?_eq_some hy)
  · split at h <;> cases h; exact .inr rfl

theorem look_after {m : Mem Loc} {l : Loc} {t : Nat} (h : last m l < t) : look ini m l t = none := by
  cases e : look ini m l t with
  | none => rfl
  | some x => have := look_le e; omega

theorem Mm.view {m : Mem Loc} {val : Loc → Nat} {mode : Nat} {gap : Bool} (h : Mm m val mode gap) {l : Loc} {t : Nat} {x : Msg Loc} (hx : look ini m l t = some x) :
    (∀ k, x.view.get k ≤ last m k) ∧ (mode ≤ 1 → l ≠ B → x.view.get B = 0) := by
  rcases look_mem hx with h1 | h1
  · refine ⟨h.bound x h1, fun hm hl => h.clean hm x h1 ?_⟩
    rw [(look_eq hx).1]; exact hl
  · simp [h1, View.get]

theorem Vw.mono {m : Mem Loc} {v : View Loc} {i mode mode' : Nat} (h : Vw m v i mode) (hm : mode ≤ mode') (x : Msg Loc) : Vw (x :: m) v i mode' where
  bound l := Nat.le_trans (h.bound l) (last_mono x m l)
  cons a b := h.cons a (by omega)
  prod a b := h.prod a (by omega)

theorem Vw.mono' {m : Mem Loc} {v : View Loc} {i mode mode' : Nat} (h : Vw m v i mode) (hm : mode ≤ mode') : Vw m v i mode' where
  bound := h.bound
  cons a b := h.cons a (by omega)
  prod a b := h.prod a (by omega)

theorem Mm.mono {m : Mem Loc} {val : Loc → Nat} {mode mode' : Nat} {gap : Bool} (h : Mm m val mode gap) (hm : mode ≤ mode') : Mm m val mode' gap where
  bound := h.bound
  vals := h.vals
  clean a := h.clean (by omega)
  gaps := h.gaps

theorem touch_le (c : C) (i : Nat) (l : Loc) : c.mode ≤ c.touch i l := by unfold C.touch; split <;> omega

/-- Thread `i` takes a step that leaves the memory alone. -/
theorem Rel.move {s : St} {c : C} (r : Rel s c) {i : Nat} (hi : i ≤ 1) {v : View Loc} {mode : Nat} (hm : c.mode ≤ mode) (hv : Vw s.mem v i mode) (p : Pc) :
    Rel (s.go i v p) (C.go { c with mode := mode } i p) := by
  obtain ⟨v0, v1, h1, h2, h3⟩ := r.ths
  have : i = 0 ∨ i = 1 := by omega
  rcases this with rfl | rfl
  · exact ⟨r.mm.mono hm, ⟨v, v1, by simp [St.go, h1, C.go], hv, h3.mono' hm⟩, r.nblk, r.fd, r.nout⟩
  · exact ⟨r.mm.mono hm, ⟨v0, v, by simp [St.go, h1, C.go], h2.mono' hm, hv⟩, r.nblk, r.fd, r.nout⟩

/-- Thread `i` stores. -/
theorem Rel.put {s : St} {c : C} (r : Rel s c) {i : Nat} (hi : i ≤ 1) {v : View Loc} {mode : Nat} (hm : c.mode ≤ mode) {y : Msg Loc} {val : Loc → Nat} {gap : Bool}
    (hmm : Mm (y :: s.mem) val mode gap) (hv : Vw (y :: s.mem) v i mode) (p : Pc) :
    Rel ({ s with mem := y :: s.mem }.go i v p) (C.go { c with val := val, mode := mode, gap := gap } i p) := by
  obtain ⟨v0, v1, h1, h2, h3⟩ := r.ths
  have : i = 0 ∨ i = 1 := by omega
  rcases this with rfl | rfl
  · exact ⟨hmm, ⟨v, v1, by simp [St.go, h1, C.go], hv, h3.mono hm y⟩, r.nblk, r.fd, r.nout⟩
  · exact ⟨hmm, ⟨v0, v, by simp [St.go, h1, C.go], h2.mono hm y, hv⟩, r.nblk, r.fd, r.nout⟩

theorem Rel.thr {s : St} {c : C} (r : Rel s c) {i : Nat} (hi : i ≤ 1) : ∃ v, s.ths[i]? = some ⟨v, c.pc i⟩ ∧ Vw s.mem v i c.mode := by
  obtain ⟨v0, v1, h1, h2, h3⟩ := r.ths
  have : i = 0 ∨ i = 1 := by omega
  rcases this with rfl | rfl
  · exact ⟨v0, by simp [h1, C.pc], h2⟩
  · exact ⟨v1, by simp [h1, C.pc], h3⟩

/-- A load of the last value. -/
theorem load_last {m : Mem Loc} {val : Loc → Nat} {mode : Nat} {gap : Bool} {v : View Loc} {i : Nat} (h : Mm m val mode gap) (hv : Vw m v i mode) (o : Order) {l : Loc}
    (he : isElem l = false) (hb : i ≠ 0 → l ≠ B) :
    ∃ v', load ini m v o l (last m l) = some (val l, v') ∧ Vw m v' i (if i = 0 ∧ l = B then max 1 mode else mode) := by
  obtain ⟨x, hx⟩ := look_last ini m l
  have hval := h.vals l x he hx
  obtain ⟨h1, h2⟩ := h.view hx
  refine ⟨if o.acquires then (v.raise l (last m l)).join x.view else v.raise l (last m l), by simp [load, hx, hv.bound l, hval], ⟨fun k => ?_, fun h0 hm => ?_, fun h0 hm => ?_⟩⟩
  · have := h1 k; have := hv.bound k
    split <;> simp only [View.get_join, View.get_raise] <;> split <;> (try subst l) <;> omega
  · have hl : l ≠ B := by rintro rfl; simp [h0] at hm
    simp only [hl, and_false, if_false] at hm
    have := hv.cons h0 hm; have := h2 (by omega) hl
    split <;> simp only [View.get_join, View.get_raise, if_neg hl] <;> omega
  · have hl := hb h0
    simp only [hl, and_false, if_false] at hm
    have := hv.prod h0 hm; have := h2 (by omega) hl
    split <;> simp only [View.get_join, View.get_raise, if_neg hl] <;> omega

/-- A new last value. -/
theorem Mm.cons {m : Mem Loc} {val : Loc → Nat} {mode mode' : Nat} {gap : Bool} (h : Mm m val mode gap) (hm : mode ≤ mode') {y : Msg Loc} (hts : last m y.loc < y.ts)
    (hb : ∀ l, y.view.get l ≤ last (y :: m) l) (hc : mode' ≤ 1 → y.loc ≠ B → y.view.get B = 0) : Mm (y :: m) (upd val y.loc y.val) mode' gap where
  bound x hx l := by
    rcases List.mem_cons.mp hx with rfl | hx
    · exact hb l
    · exact Nat.le_trans (h.bound x hx l) (last_mono y m l)
  vals l x he hx := by
    rw [look_cons, last_cons] at hx
    unfold upd
    by_cases hl : y.loc = l
    · subst hl
      rw [if_pos rfl, Nat.max_eq_left (by omega)] at hx
      simp at hx
      simp [hx]
    · rw [if_neg hl, if_neg (by simp [hl])] at hx
      rw [if_neg (fun e => hl e.symm)]
      exact h.vals l x he hx
  clean hm' x hx hl := by
    rcases List.mem_cons.mp hx with rfl | hx
    · exact hc hm' hl
    · exact h.clean (by omega) x hx hl
  gaps hg := by
    obtain ⟨t, h1, h2, h3⟩ := h.gaps hg
    refine ⟨t, h1, Nat.lt_of_lt_of_le h2 (last_mono _ _ _), ?_⟩
    rw [look_cons, if_neg ?_]
    · exact h3
    · rintro ⟨h4, h5⟩; rw [h4] at hts; omega

/-- A store at the end. -/
theorem store_last {m : Mem Loc} {val : Loc → Nat} {mode : Nat} {gap : Bool} {v : View Loc} {i : Nat} (h : Mm m val mode gap) (hv : Vw m v i mode) (o : Order) {l : Loc} (x : Nat)
    {t : Nat} (ht : last m l < t) (hb : i ≠ 0 → l ≠ B) {mode' : Nat} (hm : mode ≤ mode') (hm1 : i = 0 → l = B → mode' ≠ 0)
    (hm2 : i = 0 → o.releases = true → mode ≠ 0 ∨ l = B → 1 < mode') :
    ∃ y v', store ini m v o l t x = some (y :: m, v') ∧ Mm (y :: m) (upd val l x) mode' gap ∧ Vw (y :: m) v' i mode' ∧ y.loc = l ∧ y.ts = t := by
  refine ⟨⟨l, t, x, if o.releases then v.raise l t else [(l, t)]⟩, v.raise l t, ?_, ?_, ?_, rfl, rfl⟩
  · have := hv.bound l
    simp [store, look_after ht]; omega
  · refine h.cons (y := ⟨l, t, x, _⟩) hm ht ?_ ?_
    · intro k
      have := hv.bound k
      rw [last_cons]
      by_cases hk : l = k
      · subst hk
        split <;> simp only [View.get_raise, View.get, if_true] <;> omega
      · split <;> simp only [View.get_raise, View.get, if_neg hk] <;> omega
    · intro hm' hl
      change l ≠ B at hl
      dsimp only
      split
      · rename_i ho
        rw [View.get_raise, if_neg hl]
        by_cases hi : i = 0
        · have := hm2 hi ho
          exact hv.cons hi (by omega)
        · exact hv.prod hi (by omega)
      · simp [View.get, hl]
  · refine ⟨fun k => ?_, fun h0 hm' => ?_, fun h0 hm' => ?_⟩
    · have := hv.bound k
      rw [View.get_raise, last_cons]
      dsimp only
      split <;> omega
    · have hl : l ≠ B := fun hl => hm1 h0 hl hm'
      rw [View.get_raise, if_neg hl]; exact hv.cons h0 (by omega)
    · rw [View.get_raise, if_neg (hb h0)]; exact hv.prod h0 (by omega)

/-- A read-modify-write at the end. -/
theorem rmw_last {m : Mem Loc} {val : Loc → Nat} {mode : Nat} {gap : Bool} {v : View Loc} {i : Nat} (h : Mm m val mode gap) (hv : Vw m v i mode) (o : Order) {l : Loc} (f : Nat → Nat)
    (he : isElem l = false) (hb : l ≠ B) {mode' : Nat} (hm : mode ≤ mode') (hm2 : i = 0 → o.releases = true → mode ≠ 0 → 1 < mode') :
    ∃ y v', rmw ini m v o l (last m l) f = some (val l, y :: m, v') ∧ Mm (y :: m) (upd val l (f (val l))) mode' gap ∧ Vw (y :: m) v' i mode' := by
  obtain ⟨x, hx⟩ := look_last ini m l
  have hval := h.vals l x he hx
  obtain ⟨h1, h2⟩ := h.view hx
  let v' := if o.acquires then (v.raise l (last m l + 1)).join x.view else v.raise l (last m l + 1)
  have hv' : ∀ k, v'.get k ≤ last (⟨l, last m l + 1, f x.val, (if o.releases then v' else [(l, last m l + 1)]).join x.view⟩ :: m) k := by
    intro k
    have := h1 k; have := hv.bound k
    rw [last_cons]
    dsimp only [v']
    by_cases hk : l = k
    · subst hk
      split <;> simp only [View.get_join, View.get_raise, if_true] <;> omega
    · split <;> simp only [View.get_join, View.get_raise, if_neg hk] <;> omega
  have hB : v.get B = 0 → mode ≤ 1 → v'.get B = 0 := by
    intro a b
    have := h2 b hb
    dsimp only [v']
    split <;> simp only [View.get_join, View.get_raise, if_neg hb] <;> omega
  refine ⟨⟨l, last m l + 1, f x.val, (if o.releases then v' else [(l, last m l + 1)]).join x.view⟩, v', ?_, ?_, ⟨hv', fun a b => hB (hv.cons a (by omega)) (by omega), fun a b => hB (hv.prod a (by omega)) (by omega)⟩⟩
  · simp only [rmw, hx, hv.bound l, look_after (show last m l < last m l + 1 by omega), and_self, if_true, hval, v']
  · rw [← hval]
    refine h.cons (y := ⟨l, last m l + 1, f x.val, _⟩) hm (by dsimp only; omega) ?_ ?_
    · intro k
      have a1 := hv' k
      have a2 := h1 k
      rw [View.get_join]
      have a3 := last_mono ⟨l, last m l + 1, f x.val, (if o.releases then v' else [(l, last m l + 1)]).join x.view⟩ m k
      split
      · rename_i ho
        rw [if_pos ho] at a1 a3
        omega
      · rename_i ho
        rw [if_neg ho] at a3
        have : View.get [(l, last m l + 1)] k ≤ last (⟨l, last m l + 1, f x.val, View.join [(l, last m l + 1)] x.view⟩ :: m) k := by
          rw [last_cons]; simp only [View.get]; split <;> omega
        omega
    · intro hm' _
      dsimp only
      rw [View.get_join, h2 (by omega) hb]
      split
      · rename_i ho
        have : v'.get B = 0 := by
          refine hB ?_ (by omega)
          by_cases hi : i = 0
          · have := hm2 hi ho
            exact hv.cons hi (by omega)
          · exact hv.prod hi (by omega)
        omega
      · simp [View.get, hb]

theorem ld_sim {s : St} {c c' : C} (r : Rel s c) {i : Nat} (hi : i ≤ 1) {v : View Loc} (hv : Vw s.mem v i c.mode) (p : Pc) (o : Order) {l : Loc} {k : Nat → Pc}
    (he : isElem l = false) (h : c.ld i l k = some c') : ∃ ts s', WQ.ld s i ⟨v, p⟩ o l ts k = some s' ∧ Rel s' c' := by
  unfold C.ld at h
  split at h
  · cases h
  · rename_i hb
    cases h
    obtain ⟨v', h1, h2⟩ := load_last r.mm hv o he (l := l) (by intro a b; exact hb ⟨a, b⟩)
    refine ⟨last s.mem l, s.go i v' (k (c.val l)), by simp [WQ.ld, h1], ?_⟩
    exact r.move hi (touch_le c i l) h2 _

theorem pub_spec (c : C) (i : Nat) (o : Order) (l : Loc) : c.mode ≤ c.pub i o l ∧ (i = 0 → l = B → c.pub i o l ≠ 0) ∧
    (i = 0 → o.releases = true → c.mode ≠ 0 ∨ l = B → 1 < c.pub i o l) := by
  unfold C.pub C.touch
  refine ⟨?_, ?_, ?_⟩
  · split <;> split <;> omega
  · intro a b; subst a b; simp only [and_self, if_true, true_and]; split <;> omega
  · intro a b d
    subst a
    have : (if (0 : Nat) = 0 ∧ l = B then max 1 c.mode else c.mode) ≠ 0 := by
      split
      · omega
      · rename_i hn; rcases d with d | d
        · exact d
        · exact absurd ⟨rfl, d⟩ hn
    rw [if_pos ⟨rfl, b, this⟩]
    omega

theorem st_sim {s : St} {c c' : C} (r : Rel s c) {i : Nat} (hi : i ≤ 1) {v : View Loc} (hv : Vw s.mem v i c.mode) (p : Pc) {o : Order} {l : Loc} {x : Nat} {k : Pc}
    (h : c.wr i o l x k = some c') : ∃ ts s', WQ.st s i ⟨v, p⟩ o l ts x k = some s' ∧ Rel s' c' := by
  unfold C.wr at h
  split at h
  · cases h
  · rename_i hb
    cases h
    obtain ⟨q1, q2, q3⟩ := pub_spec c i o l
    obtain ⟨y, v', h1, h2, h3, -, -⟩ := store_last r.mm hv o (l := l) x (t := last s.mem l + 1) (by omega) (by intro a b; exact hb ⟨a, b⟩) q1 q2 q3
    exact ⟨last s.mem l + 1, _, by simp [WQ.st, h1], r.put hi q1 h2 h3 k⟩

theorem up_sim {s : St} {c c' : C} (r : Rel s c) {i : Nat} (hi : i ≤ 1) {v : View Loc} (hv : Vw s.mem v i c.mode) (p : Pc) {o : Order} {l : Loc} {f : Nat → Nat} {k : Nat → Pc}
    (he : isElem l = false) (hl : l ≠ B) (h : c.wr i o l (f (c.val l)) (k (c.val l)) = some c') : ∃ ts s', WQ.up s i ⟨v, p⟩ o l ts f k = some s' ∧ Rel s' c' := by
  unfold C.wr at h
  split at h
  · cases h
  · rename_i hb
    cases h
    obtain ⟨q1, q2, q3⟩ := pub_spec c i o l
    obtain ⟨y, v', h1, h2, h3⟩ := rmw_last r.mm hv o (l := l) f he hl q1 (fun a b d => q3 a b (.inl d))
    exact ⟨last s.mem l, _, by simp [WQ.up, h1], r.put hi q1 h2 h3 _⟩

theorem cas_sim {s : St} {c c' : C} (r : Rel s c) {i : Nat} (hi : i ≤ 1) {v : View Loc} (hv : Vw s.mem v i c.mode) (p : Pc) {o : Order} (fo : Order) {l : Loc} {x y : Nat} {yes : Pc} (no : Pc)
    (he : isElem l = false) (hl : l ≠ B) (h : c.cas i o l x y yes = some c') : ∃ ts s', WQ.cas s i ⟨v, p⟩ o fo l ts x y true yes no = some s' ∧ Rel s' c' := by
  unfold C.cas at h
  split at h
  · rename_i hx
    unfold C.wr at h
    split at h
    · cases h
    · cases h
      obtain ⟨q1, q2, q3⟩ := pub_spec c i o l
      obtain ⟨w, v', h1, h2, h3⟩ := rmw_last r.mm hv o (l := l) (fun _ => y) he hl q1 (fun a b d => q3 a b (.inl d))
      obtain ⟨v2, h4, -⟩ := load_last r.mm hv fo he (l := l) (fun _ => hl)
      exact ⟨last s.mem l, _, by simp [WQ.cas, h4, hx, h1], r.put hi q1 h2 h3 _⟩
  · cases h

theorem Rel.fd' {s : St} {c : C} (r : Rel s c) (n : Nat) : Rel { s with fd := n } { c with fd := n } := ⟨r.mm, r.ths, r.nblk, rfl, r.nout⟩
theorem Rel.nblk' {s : St} {c : C} (r : Rel s c) (n : Nat) : Rel { s with nblk := n } { c with nblk := n } := ⟨r.mm, r.ths, rfl, r.fd, r.nout⟩
theorem Rel.acc' {s : St} {c : C} (r : Rel s c) (a : List Nat) : Rel { s with acc := a } c := ⟨r.mm, r.ths, r.nblk, r.fd, r.nout⟩

theorem Rel.same {s : St} {c : C} (r : Rel s c) {i : Nat} (hi : i ≤ 1) {v : View Loc} (hv : Vw s.mem v i c.mode) (p : Pc) : Rel (s.go i v p) (c.go i p) :=
  r.move hi (Nat.le_refl _) hv p

theorem ex_sim {size : Nat} {s : St} {c c' : C} (r : Rel s c) {i : Nat} (hi : i ≤ 1) (h : c.ex size i = some c') : ∃ ts s', step size s (.step i ts true) = some s' ∧ Rel s' c' := by
  obtain ⟨v, h1, hv⟩ := r.thr hi
  simp only [step, h1]
  unfold C.ex at h
  generalize hp : c.pc i = p at h
  cases p with
  | idle => cases h
  | e0 e => exact ld_sim r hi hv _ _ rfl h
  | e1 e t => exact ld_sim r hi hv _ _ rfl h
  | e2 e t n => exact cas_sim r hi hv _ _ _ rfl (by simp) h
  | e3 e t => exact ld_sim r hi hv _ _ rfl h
  | e4 e t => exact ld_sim r hi hv _ _ rfl h
  | e5 e t => exact ld_sim r hi hv _ _ rfl h
  | p0 e t =>
    obtain ⟨v', h2, h3⟩ := load_last r.mm hv .acq (l := .top) rfl (by simp)
    have h3 : Vw s.mem v' i c.mode := by simpa using h3
    refine ⟨last s.mem .top, ?_⟩
    simp only [exec, h2]
    dsimp only at h
    split at h
    · cases h
      rename_i hz
      rw [if_pos hz]
      refine ⟨_, rfl, ?_⟩
      rw [← r.nblk]
      exact (r.nblk' (s.nblk + 1)).same hi h3 _
    · rename_i hz
      rw [if_neg hz]
      cases h
      exact ⟨_, rfl, r.same hi h3 _⟩
  | p1 e t u => exact ld_sim r hi hv _ _ rfl h
  | p2 e t u n => exact cas_sim r hi hv _ _ _ rfl (by simp) h
  | p3 e t u => exact ld_sim r hi hv _ _ rfl h
  | p4 e t u x => exact cas_sim r hi hv _ _ _ rfl (by simp) h
  | i1 e t n => exact st_sim r hi hv _ h
  | i2 e t n => exact st_sim r hi hv _ h
  | i3 e t n => exact st_sim r hi hv _ h
  | e9 e t n => exact cas_sim r hi hv _ _ _ rfl (by simp) h
  | ea e t n => exact st_sim r hi hv _ h
  | eb e t n => exact st_sim r hi hv _ h
  | pu u k => exact st_sim r hi hv _ h
  | f0 u k => exact up_sim r hi hv _ (f := (· - 1)) (k := fun n => if n ≠ 1 then k.next else .f1 u k) rfl (by simp) h
  | f1 u k => exact ld_sim r hi hv _ _ rfl h
  | f2 u k x => exact st_sim r hi hv _ h
  | f3 u k x => exact cas_sim r hi hv _ _ _ rfl (by simp) h
  | f4 u k => exact st_sim r hi hv _ h
  | ec e t tt =>
    obtain ⟨ts, s', h2, h3⟩ := cas_sim r hi hv (.ec e t tt) .rlx (.f0 t (.retry e)) rfl (by simp) h
    refine ⟨ts, ?_⟩
    simp only [exec, h2, Option.map_some]
    refine ⟨_, rfl, ?_⟩
    split
    · exact h3.acc' _
    · exact h3
  | ed e t tt =>
    cases h
    refine ⟨0, _, rfl, ?_⟩
    obtain ⟨v0, v1, g1, g2, g3⟩ := r.ths
    have hn : ∀ (y : Msg Loc), y.loc = .elem t tt → y.ts = last s.mem (.elem t tt) + 1 → y.view = [] → Mm (y :: s.mem) c.val c.mode c.gap := by
      intro y e1 e2 e3
      have := r.mm.cons (Nat.le_refl _) (y := y) (by rw [e1]; omega) (by intro l; simp [e3, View.get]) (by intro _ _; simp [e3, View.get])
      exact ⟨this.bound, fun l x he hx => by
        have h2 := this.vals l x he hx
        rw [h2, upd, if_neg]
        rintro rfl; rw [e1] at he; simp [isElem] at he, this.clean, this.gaps⟩
    have hv' : ∀ (y : Msg Loc), y.loc = .elem t tt → y.ts = last s.mem (.elem t tt) + 1 → Vw (y :: s.mem) (v.raise (.elem t tt) (last s.mem (.elem t tt) + 1)) i c.mode := by
      intro y e1 e2
      refine ⟨fun k => ?_, fun a b => ?_, fun a b => ?_⟩
      · have := hv.bound k
        rw [View.get_raise, last_cons, e1, e2]
        split <;> omega
      · rw [View.get_raise, if_neg (by simp)]; exact hv.cons a b
      · rw [View.get_raise, if_neg (by simp)]; exact hv.prod a b
    have := r.put hi (Nat.le_refl _) (hn ⟨.elem t tt, last s.mem (.elem t tt) + 1, e, []⟩ rfl rfl rfl) (hv' _ rfl rfl) (.ee e t tt)
    exact ⟨this.mm, this.ths, this.nblk, this.fd, this.nout⟩
  | ee e t tt => exact st_sim r hi hv _ h
  | x j => exact up_sim r hi hv _ (f := fun _ => 0) (k := fun b => if b = 1 then .nt else .idle) rfl (by simp) h
  | nt =>
    cases h
    refine ⟨0, _, rfl, ?_⟩
    rw [← r.fd]
    exact (r.fd' (s.fd + 1)).same hi hv _
  | c0 =>
    cases h
    exact ⟨0, _, rfl, (r.fd' 0).same hi hv _⟩
  | c1 => exact up_sim r hi hv _ (f := fun _ => 1) (k := fun _ => .d0) rfl (by simp) h
  | d0 => exact ld_sim r hi hv _ _ rfl h
  | d1 h' => exact ld_sim r hi hv _ _ rfl h
  | d2 h' hh => exact ld_sim r hi hv _ _ rfl h
  | d3 h' => exact ld_sim r hi hv _ _ rfl h
  | d4 h' n => exact st_sim r hi hv _ h
  | d5 h' hh => exact st_sim r hi hv _ h
  | d6 h' hh => exact ld_sim r hi hv _ _ rfl h
  | d7 h' hh =>
    cases h
    refine ⟨0, _, rfl, ?_⟩
    have := r.same hi hv (.d8 h' hh)
    obtain ⟨v0, v1, g1, g2, g3⟩ := this.ths
    have : i = 0 ∨ i = 1 := by omega
    rcases this with rfl | rfl
    · exact ⟨r.mm, ⟨v0, v1, g1, g2, g3⟩, r.nblk, r.fd, by simp [St.go, C.go, r.nout]⟩
    · exact ⟨r.mm, ⟨v0, v1, g1, g2, g3⟩, r.nblk, r.fd, by simp [St.go, C.go, r.nout]⟩
  | d8 h' hh => exact st_sim r hi hv _ h
  | cn => cases h

def CAct.call? : CAct → Option (Nat × Nat)
  | .call e => some (1, e)
  | _ => none

def Act.calls : Act → Option (Nat × Nat)
  | .call i e => some (i, e)
  | _ => none

theorem step_sim {size : Nat} {s : St} {c c' : C} (r : Rel s c) {a : CAct} (h : c.step size a = some c') :
    ∃ a' s', step size s a' = some s' ∧ Rel s' c' ∧ a'.calls = a.call? := by
  cases a with
  | call e =>
    simp only [C.step] at h
    split at h
    · rename_i hp
      cases h
      obtain ⟨v, h1, hv⟩ := r.thr (i := 1) (by omega)
      refine ⟨.call 1 e, _, by simp [step, h1, C.pc, hp], r.same (by omega) hv (.e0 e), rfl⟩
    · cases h
  | step i =>
    simp only [C.step] at h
    split at h
    · rename_i hi
      obtain ⟨ts, s', h1, h2⟩ := ex_sim r hi h
      exact ⟨_, s', h1, h2, rfl⟩
    · cases h
  | fire =>
    simp only [C.step] at h
    split at h
    · rename_i hp
      cases h
      obtain ⟨v, h1, hv⟩ := r.thr (i := 0) (by omega)
      refine ⟨.fire, _, by simp [step, h1, C.pc, hp, r.fd], r.same (by omega) hv .c0, rfl⟩
    · cases h
  | gap =>
    simp only [C.step] at h
    split at h
    · rename_i hh hp
      cases h
      obtain ⟨v, h1, hv⟩ := r.thr (i := 0) (by omega)
      obtain ⟨y, v', h2, h3, h4, h5, h6⟩ := store_last r.mm hv .rlx (l := B) (hh + 1) (t := last s.mem B + 2) (by omega) (by simp) (mode' := max 1 c.mode) (by omega) (by intros; omega) (by intro _ a; cases a)
      refine ⟨.step 0 (last s.mem B + 2) true, { s with mem := y :: s.mem }.go 0 v' (.d6 0 hh), by simp [step, h1, C.pc, hp, exec, WQ.st, h2], ?_, rfl⟩
      refine r.put (by omega) (by omega) (val := upd c.val B (hh + 1)) (mode := max 1 c.mode) (gap := true) ⟨h3.bound, h3.vals, h3.clean, fun _ => ?_⟩ h4 _
      refine ⟨last s.mem B + 1, by omega, by rw [last_cons, if_pos h5, h6]; omega, ?_⟩
      rw [look_cons, if_neg (by rintro ⟨_, e⟩; omega)]
      exact look_after (by omega)
    · cases h
  | stale =>
    simp only [C.step] at h
    split at h
    · rename_i e t hp
      split at h
      · rename_i hm
        cases h
        obtain ⟨v, h1, hv⟩ := r.thr (i := 1) (by omega)
        obtain ⟨t0, g1, g2, g3⟩ := r.mm.gaps hm.2
        have h0 := hv.prod (by omega) hm.1
        have hs : store ini s.mem v .rlx B t0 0 = some (⟨B, t0, 0, [(B, t0)]⟩ :: s.mem, v.raise B t0) := by
          simp [store, h0, g1, g3, Order.releases]
        have hlast : ∀ l, last (⟨B, t0, 0, [(B, t0)]⟩ :: s.mem) l = last s.mem l := by
          intro l
          rw [last_cons]
          dsimp only
          split
          · subst l; omega
          · rfl
        refine ⟨.step 1 t0 true, { s with mem := ⟨B, t0, 0, [(B, t0)]⟩ :: s.mem }.go 1 (v.raise B t0) (.i2 e t 0), by simp [step, h1, C.pc, hp, exec, WQ.st, hs], ?_, rfl⟩
        refine r.put (by omega) (by omega) (val := c.val) (mode := 2) (gap := false) ⟨fun x hx l => ?_, fun l x he hx => ?_, fun a => by omega, fun a => by cases a⟩
          ⟨fun l => ?_, fun a => by omega, fun _ a => by omega⟩ _
        · rw [hlast]
          rcases List.mem_cons.mp hx with rfl | hx
          · simp only [View.get]; split
            · subst l; omega
            · omega
          · exact r.mm.bound x hx l
        · rw [hlast, look_cons, if_neg ?_] at hx
          · exact r.mm.vals l x he hx
          · rintro ⟨rfl, a⟩; dsimp only at a; omega
        · rw [hlast, View.get_raise]
          have := hv.bound l
          split
          · subst l; omega
          · exact this
      · cases h
    · cases h

theorem run_sim {size : Nat} : ∀ (as : List CAct) {s : St} {c c' : C}, Rel s c → c.run size as = some c' →
    ∃ as' s', run size s as' = some s' ∧ Rel s' c' ∧ as'.filterMap Act.calls = as.filterMap CAct.call?
  | [], s, c, c', r, h => by cases h; exact ⟨[], s, rfl, r, rfl⟩
  | a :: as, s, c, c', r, h => by
    obtain ⟨c1, h1, h2⟩ := Option.bind_eq_some_iff.mp h
    obtain ⟨a', s1, g1, g2, g3⟩ := step_sim r h1
    obtain ⟨as', s', f1, f2, f3⟩ := run_sim as g2 h2
    exact ⟨a' :: as', s', by simp [run, g1, f1], f2, by simp [List.filterMap_cons, g3, f3]⟩

end WQ
end Salticidae
