import Verif.Model.Queue
/-!
Runs of the queue for any block size: the state without ghosts, and its steps.
-/
namespace Salticidae
namespace Queue
open FreeList (upd Node)

variable {α : Type}

/-- The state without ghosts (but with the log). -/
structure R (α : Type) where
  node : Nat → Node
  alloc : Nat
  top : Option Nat
  fpc : Nat → FreeList.Pc
  blk : Nat → Blk α
  qhead : Nat
  qtail : Nat
  pc : Nat → Pc α
  log : List (Ev α)

def real (s : St α) : R α := ⟨s.fl.node, s.fl.alloc, s.fl.top, s.fl.pc, s.blk, s.qhead, s.qtail, s.pc, s.log⟩

def lift (r : R α) : St α where
  fl := { node := r.node, alloc := r.alloc, top := r.top, pc := r.fpc, phase := fun _ => .used, holders := fun _ => [], held := fun _ => [], list := [], log := [], bad := false }
  blk := r.blk
  qhead := r.qhead
  qtail := r.qtail
  pc := r.pc
  log := r.log
  chain := []
  stat := fun _ => .free
  seen := fun _ => false
  slot := fun _ _ => none
  wr := fun _ _ => none
  rd := fun _ _ => none
  lk := none
  hid := fun _ => none

def rstep (B : Nat) (r : R α) (a : Act α) : Option (R α) := (step B (lift r) a).map real

mutual
def rrun (B : Nat) : R α → List (Act α) → Option (R α)
  | r, [] => some r
  | r, a :: as => rnext B (rstep B r a) as
def rnext (B : Nat) : Option (R α) → List (Act α) → Option (R α)
  | none, _ => none
  | some r, as => rrun B r as
end

/-- Where a call of an operation of the free list leads. -/
def opPc (alloc : Nat) : FreeList.Op → FreeList.Pc
  | .new => .ret (.popped alloc)
  | .ref u => .ref1 u
  | .push u => .push u
  | .release u => .rel u false .ret
  | .pop => .pop1

def opAlloc (alloc : Nat) : FreeList.Op → Nat
  | .new => alloc + 1
  | _ => alloc

@[simp] theorem fcall_node (s : FreeList.St) (i : Nat) (op : FreeList.Op) : (FreeList.call s i op).node = s.node := by
  cases op <;> simp only [FreeList.call] <;> (repeat' split) <;> rfl
@[simp] theorem fcall_top (s : FreeList.St) (i : Nat) (op : FreeList.Op) : (FreeList.call s i op).top = s.top := by
  cases op <;> simp only [FreeList.call] <;> (repeat' split) <;> rfl
@[simp] theorem fcall_alloc (s : FreeList.St) (i : Nat) (op : FreeList.Op) : (FreeList.call s i op).alloc = opAlloc s.alloc op := by
  cases op <;> simp only [FreeList.call] <;> (repeat' split) <;> rfl
@[simp] theorem fcall_pc (s : FreeList.St) (i : Nat) (op : FreeList.Op) : (FreeList.call s i op).pc = upd s.pc i (opPc s.alloc op) := by
  cases op <;> simp only [FreeList.call] <;> (repeat' split) <;> rfl

theorem real_local {B : Nat} (s : St α) (i : Nat) (ch : Bool) (r : FreeList.Res) :
    (localStep B s i ch r).map real = (localStep B (lift (real s)) i ch r).map real := by
  simp only [localStep, lift, real]
  cases hp : s.pc i <;>
    simp only [enqStep, deqStep, rewStep, mpmcStep, addStep, Option.none_or, Option.or_none, Option.some_or, gotBlk]
  all_goals (repeat' split)
  all_goals first
    | rfl
    | (simp [real, St.setPc, St.call, St.setBlk, St.setStat, St.rcd, St.ret]; done)

def fr (s : FreeList.St) : (Nat → Node) × Nat × Option Nat × (Nat → FreeList.Pc) := (s.node, s.alloc, s.top, s.pc)

theorem fl_micro (s t : FreeList.St) (i : Nat) (ch : Bool) (h : fr s = fr t) : (FreeList.micro s i ch).map fr = (FreeList.micro t i ch).map fr := by
  obtain ⟨node, alloc, top, pc, _, _, _, _, _, _⟩ := s
  obtain ⟨node', alloc', top', pc', _, _, _, _, _, _⟩ := t
  simp only [fr, Prod.mk.injEq] at h
  obtain ⟨rfl, rfl, rfl, rfl⟩ := h
  simp only [FreeList.micro]
  cases hp : pc i <;> simp only [FreeList.release, FreeList.St.setPc, FreeList.St.setCnt, FreeList.St.setPhase, FreeList.St.setFreed, FreeList.St.setNext, FreeList.St.addHolder, FreeList.St.delHolder]
  all_goals (repeat' split)
  all_goals first
    | rfl
    | (exfalso; simp_all; done)

theorem real_micro (s : St α) (i : Nat) (ch : Bool) :
    ((FreeList.micro s.fl i ch).map (afterMicro s i)).map real = ((FreeList.micro (lift (real s)).fl i ch).map (afterMicro (lift (real s)) i)).map real := by
  have h := fl_micro s.fl (lift (real s)).fl i ch rfl
  cases h1 : FreeList.micro s.fl i ch with
  | none =>
    rw [h1] at h
    cases h2 : FreeList.micro (lift (real s)).fl i ch with
    | none => rfl
    | some f => rw [h2] at h; cases h
  | some e =>
    rw [h1] at h
    cases h2 : FreeList.micro (lift (real s)).fl i ch with
    | none => rw [h2] at h; cases h
    | some f =>
      rw [h2] at h
      simp only [Option.map_some, Option.some.injEq, fr, Prod.mk.injEq] at h
      obtain ⟨a, b, c, d⟩ := h
      simp only [Option.map_some, real, afterMicro, a, b, c, d, lift]

theorem real_step {B : Nat} (s : St α) (a : Act α) : (step B s a).map real = rstep B (real s) a := by
  unfold rstep
  cases a with
  | start i c =>
    simp only [step]
    cases hp : s.pc i <;> simp [lift, real, hp, St.rcd, St.setPc]
  | go i ch =>
    simp only [step]
    have e : (lift (real s)).fl.pc i = s.fl.pc i := rfl
    rw [e]
    cases hp : s.fl.pc i <;> simp only
    · exact real_local s i ch _
    all_goals exact real_micro s i ch

theorem real_run {B : Nat} : ∀ (as : List (Act α)) (s : St α), (run B s as).map real = rrun B (real s) as
  | [], s => by simp [run, rrun]
  | a :: as, s => by
    rw [run, rrun, ← real_step]
    cases step B s a with
    | none => simp [rnext]
    | some s' => simp [rnext, real_run as s']

theorem rrun_append {B : Nat} : ∀ {as bs : List (Act α)} {r r' : R α}, rrun B r as = some r' → rrun B r (as ++ bs) = rrun B r' bs
  | [], bs, r, r', h => by simp [rrun] at h; subst h; rfl
  | a :: as, bs, r, r', h => by
    rw [List.cons_append, rrun]
    rw [rrun] at h
    cases hs : rstep B r a with
    | none => rw [hs, rnext] at h; cases h
    | some r1 => rw [hs, rnext] at h; rw [rnext]; exact rrun_append h

/-- A function given by its first values. -/
def fn {β : Type} (a0 a1 a2 a3 a4 : β) (d : Nat → β) : Nat → β
  | 0 => a0
  | 1 => a1
  | 2 => a2
  | 3 => a3
  | 4 => a4
  | n => d n

section
variable {β : Type} (a0 a1 a2 a3 a4 x : β) (d : Nat → β)
@[simp] theorem fn0 : fn a0 a1 a2 a3 a4 d 0 = a0 := rfl
@[simp] theorem fn1 : fn a0 a1 a2 a3 a4 d 1 = a1 := rfl
@[simp] theorem fn2 : fn a0 a1 a2 a3 a4 d 2 = a2 := rfl
@[simp] theorem fn3 : fn a0 a1 a2 a3 a4 d 3 = a3 := rfl
@[simp] theorem fn4 : fn a0 a1 a2 a3 a4 d 4 = a4 := rfl
theorem fn_ext {f g : Nat → β} (h0 : f 0 = g 0) (h1 : f 1 = g 1) (h2 : f 2 = g 2) (h3 : f 3 = g 3) (h4 : f 4 = g 4) (h5 : ∀ n, f (n + 5) = g (n + 5)) : f = g := by
  funext n
  match n with
  | 0 => exact h0
  | 1 => exact h1
  | 2 => exact h2
  | 3 => exact h3
  | 4 => exact h4
  | n + 5 => exact h5 n
@[simp] theorem upd_fn0 : upd (fn a0 a1 a2 a3 a4 d) 0 x = fn x a1 a2 a3 a4 d := by apply fn_ext <;> simp [upd] <;> intros <;> rfl
@[simp] theorem upd_fn1 : upd (fn a0 a1 a2 a3 a4 d) 1 x = fn a0 x a2 a3 a4 d := by apply fn_ext <;> simp [upd] <;> intros <;> rfl
@[simp] theorem upd_fn2 : upd (fn a0 a1 a2 a3 a4 d) 2 x = fn a0 a1 x a3 a4 d := by apply fn_ext <;> simp [upd] <;> intros <;> rfl
@[simp] theorem upd_fn3 : upd (fn a0 a1 a2 a3 a4 d) 3 x = fn a0 a1 a2 x a4 d := by apply fn_ext <;> simp [upd] <;> intros <;> rfl
@[simp] theorem upd_fn4 : upd (fn a0 a1 a2 a3 a4 d) 4 x = fn a0 a1 a2 a3 x d := by apply fn_ext <;> simp [upd] <;> intros <;> rfl
end

macro "exec" "[" ts:Lean.Parser.Tactic.simpLemma,* "]" : tactic => `(tactic| simp [rrun, rnext, rstep, lift, real, step, localStep, enqStep, deqStep, rewStep, mpmcStep, addStep, gotBlk, St.setPc, St.call, St.setBlk, St.setStat, St.rcd, St.ret, start, opPc, opAlloc,
  FreeList.micro, afterMicro, FreeList.release, FreeList.St.setPc, FreeList.St.setCnt, FreeList.St.setPhase, FreeList.St.setFreed, FreeList.St.setNext, FreeList.St.addHolder, FreeList.St.delHolder, FreeList.K.pc, $ts,*])

/-- n steps of thread i. -/
def goes {α : Type} (i : Nat) : Nat → List (Act α)
  | 0 => []
  | n + 1 => .go i true :: goes i n

@[simp] theorem upd_same {β : Type} (f : Nat → β) (i : Nat) (x : β) : upd f i x i = x := by simp [upd]
@[simp] theorem upd_upd {β : Type} (f : Nat → β) (i : Nat) (x y : β) : upd (upd f i x) i y = upd f i y := by funext j; simp only [upd]; split <;> rfl
theorem upd_ne {β : Type} {f : Nat → β} {i j : Nat} {x : β} (h : j ≠ i) : upd f i x j = f j := by simp [upd, h]
theorem upd_id {β : Type} (f : Nat → β) (i : Nat) (x : β) (h : f i = x) : upd f i x = f := by funext j; simp only [upd]; split <;> simp_all

/-- An enqueue into the tail block, which has room. -/
theorem enq_at {B : Nat} {r : R α} {i b c : Nat} {e : α} {u : Bool} {nx : Option Nat} {q : FreeList.Res} (h1 : r.pc i = .e1 e u) (h2 : r.fpc i = .ret q) (h3 : r.qtail = b)
    (h4 : r.node b = ⟨nx, c + 1, false⟩) (h5 : (r.blk b).tail < B) :
    rrun B r (goes i 11) = some { r with
      fpc := upd r.fpc i (.ret .none)
      blk := upd r.blk b { r.blk b with tail := (r.blk b).tail + 1, elem := upd (r.blk b).elem (r.blk b).tail (some e), avail := upd (r.blk b).avail (r.blk b).tail true }
      pc := upd r.pc i (.idle .yes)
      log := r.log ++ [.enq i e, .ret i .yes] } := by
  have h : ¬ B ≤ (r.blk b).tail := by omega
  have h6 : upd r.node b ⟨nx, c + 1, false⟩ = r.node := upd_id _ _ _ h4
  exec [goes, h, h1, h2, h3, h4, h6]

/-- A dequeue from the head block. -/
theorem deq_at {B : Nat} {r : R α} {i b : Nat} {q : FreeList.Res} (h1 : r.pc i = .d1) (h2 : r.fpc i = .ret q) (h3 : r.qhead = b)
    (h4 : (r.blk b).head < (r.blk b).tail) (h5 : (r.blk b).avail (r.blk b).head = true) :
    rrun B r (goes i 7) = some { r with
      blk := upd r.blk b { r.blk b with head := (r.blk b).head + 1, avail := upd (r.blk b).avail (r.blk b).head false }
      pc := upd r.pc i (.idle (.val ((r.blk b).elem (r.blk b).head)))
      log := r.log ++ [.take i, .ret i (.val ((r.blk b).elem (r.blk b).head))] } := by
  have h : ¬ (r.blk b).tail ≤ (r.blk b).head := by omega
  exec [goes, h, h1, h2, h3, h5]

/-- n enqueues of e by thread i, one after the other. -/
def fill {α : Type} (i : Nat) (e : α) (u : Bool) : Nat → List (Act α)
  | 0 => []
  | n + 1 => .start i (.enq e u) :: goes i 11 ++ fill i e u n
def fillLog {α : Type} (i : Nat) (e : α) (u : Bool) : Nat → List (Ev α)
  | 0 => []
  | n + 1 => [.call i (.enq e u), .enq i e, .ret i .yes] ++ fillLog i e u n

def drain {α : Type} (i : Nat) : Nat → List (Act α)
  | 0 => []
  | n + 1 => .start i .deq :: goes i 7 ++ drain i n
def drainLog {α : Type} (i : Nat) (e : α) : Nat → List (Ev α)
  | 0 => []
  | n + 1 => [.call i .deq, .take i, .ret i (.val (some e))] ++ drainLog i e n

theorem start_at {B : Nat} {r : R α} {i : Nat} {c : Call α} {x : Ret α} {as : List (Act α)} (h : r.pc i = .idle x) :
    rrun B r (.start i c :: as) = rrun B { r with pc := upd r.pc i (start c), log := r.log ++ [.call i c] } as := by
  exec [h]

theorem fill_at {B i b c : Nat} {e : α} {u : Bool} {nx : Option Nat} : ∀ (n : Nat) {r : R α} {x : Ret α}, r.pc i = .idle x → r.fpc i = .ret .none → r.qtail = b →
    r.node b = ⟨nx, c + 1, false⟩ → (r.blk b).tail + n ≤ B →
    ∃ E A y, rrun B r (fill i e u n) = some { r with
      blk := upd r.blk b { r.blk b with tail := (r.blk b).tail + n, elem := E, avail := A }
      pc := upd r.pc i (.idle y)
      log := r.log ++ fillLog i e u n } ∧
      (∀ k, (r.blk b).tail ≤ k → k < (r.blk b).tail + n → E k = some e ∧ A k = true) ∧
      (∀ k, k < (r.blk b).tail → E k = (r.blk b).elem k ∧ A k = (r.blk b).avail k)
  | 0, r, x, h1, h2, h3, h4, h5 => by
    refine ⟨(r.blk b).elem, (r.blk b).avail, x, ?_, fun k _ _ => by omega, fun k _ => ⟨rfl, rfl⟩⟩
    simp [fill, rrun, fillLog, upd_id r.blk, upd_id r.pc i _ h1]
  | n + 1, r, x, h1, h2, h3, h4, h5 => by
    have hf := enq_at (B := B) (r := { r with pc := upd r.pc i (start (.enq e u)), log := r.log ++ [.call i (.enq e u)] }) (e := e) (u := u) (c := c) (nx := nx) (by simp [start]) h2 h3 h4 (by simp only; omega)
    have hr : upd r.fpc i (.ret .none) = r.fpc := upd_id _ _ _ h2
    simp only [hr, upd_upd] at hf
    obtain ⟨E, A, y, g1, g2, g3⟩ := fill_at (B := B) (i := i) (b := b) (c := c) (e := e) (u := u) (nx := nx) n (x := .yes)
      (r := { r with
        blk := upd r.blk b { r.blk b with tail := (r.blk b).tail + 1, elem := upd (r.blk b).elem (r.blk b).tail (some e), avail := upd (r.blk b).avail (r.blk b).tail true }
        pc := upd r.pc i (.idle .yes)
        log := r.log ++ [.call i (.enq e u)] ++ [.enq i e, .ret i .yes] }) (by simp) h2 h3 h4 (by simp; omega)
    simp only [upd_same, upd_upd] at g1 g2 g3
    refine ⟨E, A, y, ?_, ?_, ?_⟩
    · rw [fill, List.cons_append, start_at h1, rrun_append hf, g1]
      simp [fillLog, Nat.add_assoc, Nat.add_comm 1]
    · intro k hk hk'
      by_cases e1 : k = (r.blk b).tail
      · subst e1
        obtain ⟨a1, a2⟩ := g3 (r.blk b).tail (by omega)
        simp [a1, a2]
      · exact g2 k (by omega) (by omega)
    · intro k hk
      obtain ⟨a1, a2⟩ := g3 k (by omega)
      rw [a1, a2]
      have : k ≠ (r.blk b).tail := by omega
      simp [upd, this]

theorem drain_at {B i b : Nat} {e : α} {q : FreeList.Res} : ∀ (n : Nat) {r : R α} {x : Ret α}, r.pc i = .idle x → r.fpc i = .ret q → r.qhead = b →
    (r.blk b).head + n ≤ (r.blk b).tail → (∀ k, (r.blk b).head ≤ k → k < (r.blk b).head + n → (r.blk b).elem k = some e ∧ (r.blk b).avail k = true) →
    ∃ A y, rrun B r (drain i n) = some { r with
      blk := upd r.blk b { r.blk b with head := (r.blk b).head + n, avail := A }
      pc := upd r.pc i (.idle y)
      log := r.log ++ drainLog i e n } ∧
      (∀ k, (r.blk b).head + n ≤ k → A k = (r.blk b).avail k)
  | 0, r, x, h1, h2, h3, h4, h5 => by
    refine ⟨(r.blk b).avail, x, ?_, fun k _ => rfl⟩
    simp [drain, rrun, drainLog, upd_id r.blk, upd_id r.pc i _ h1]
  | n + 1, r, x, h1, h2, h3, h4, h5 => by
    obtain ⟨he, ha⟩ := h5 (r.blk b).head (by omega) (by omega)
    have hf := deq_at (B := B) (r := { r with pc := upd r.pc i (start .deq), log := r.log ++ [.call i .deq] }) (i := i) (by simp [start]) h2 h3 (by simp only; omega) ha
    simp only [upd_upd, he] at hf
    obtain ⟨A, y, g1, g3⟩ := drain_at (B := B) (i := i) (b := b) (e := e) (q := q) n (x := .val (some e))
      (r := { r with
        blk := upd r.blk b { r.blk b with head := (r.blk b).head + 1, avail := upd (r.blk b).avail (r.blk b).head false }
        pc := upd r.pc i (.idle (.val (some e)))
        log := r.log ++ [.call i .deq] ++ [.take i, .ret i (.val (some e))] }) (by simp) h2 h3 (by simp; omega) (by
          intro k k1 k2
          simp only [upd_same] at k1 k2 ⊢
          have : k ≠ (r.blk b).head := by omega
          simp only [upd, this, if_false]
          exact h5 k (by omega) (by omega))
    simp only [upd_same, upd_upd] at g1 g3
    refine ⟨A, y, ?_, ?_⟩
    · rw [drain, List.cons_append, start_at h1, rrun_append hf, g1]
      simp [drainLog, Nat.add_assoc, Nat.add_comm 1]
    · intro k hk
      rw [g3 k (by omega)]
      have : k ≠ (r.blk b).head := by omega
      simp [upd, this]

/-- It ends in a state with a property. -/
def Ends (o : Option (R α)) (Q : R α → Prop) : Prop := ∃ r, o = some r ∧ Q r

theorem ends_some {r : R α} {Q : R α → Prop} (h : Q r) : Ends (some r) Q := ⟨r, rfl, h⟩

theorem fill_then {B i b c : Nat} {e : α} {u : Bool} {nx : Option Nat} {n : Nat} {r : R α} {x : Ret α} {as : List (Act α)} {Q : R α → Prop}
    (h1 : r.pc i = .idle x) (h2 : r.fpc i = .ret .none) (h3 : r.qtail = b) (h4 : r.node b = ⟨nx, c + 1, false⟩) (h5 : (r.blk b).tail + n ≤ B)
    (h : ∀ E A y, (∀ k, (r.blk b).tail ≤ k → k < (r.blk b).tail + n → E k = some e ∧ A k = true) → (∀ k, k < (r.blk b).tail → E k = (r.blk b).elem k ∧ A k = (r.blk b).avail k) →
      Ends (rrun B { r with
        blk := upd r.blk b { r.blk b with tail := (r.blk b).tail + n, elem := E, avail := A }
        pc := upd r.pc i (.idle y)
        log := r.log ++ fillLog i e u n } as) Q) : Ends (rrun B r (fill i e u n ++ as)) Q := by
  obtain ⟨E, A, y, a, b, c⟩ := fill_at (u := u) (e := e) n h1 h2 h3 h4 h5
  rw [rrun_append a]
  exact h E A y b c

theorem enq_then {B i b c : Nat} {e : α} {u : Bool} {nx : Option Nat} {q : FreeList.Res} {r : R α} {as : List (Act α)} {Q : R α → Prop}
    (h1 : r.pc i = .e1 e u) (h2 : r.fpc i = .ret q) (h3 : r.qtail = b) (h4 : r.node b = ⟨nx, c + 1, false⟩) (h5 : (r.blk b).tail < B)
    (h : Ends (rrun B { r with
      fpc := upd r.fpc i (.ret .none)
      blk := upd r.blk b { r.blk b with tail := (r.blk b).tail + 1, elem := upd (r.blk b).elem (r.blk b).tail (some e), avail := upd (r.blk b).avail (r.blk b).tail true }
      pc := upd r.pc i (.idle .yes)
      log := r.log ++ [.enq i e, .ret i .yes] } as) Q) : Ends (rrun B r (goes i 11 ++ as)) Q := by
  rw [rrun_append (enq_at h1 h2 h3 h4 h5)]
  exact h

theorem drain_then {B i b n : Nat} {e : α} {q : FreeList.Res} {r : R α} {x : Ret α} {as : List (Act α)} {Q : R α → Prop}
    (h1 : r.pc i = .idle x) (h2 : r.fpc i = .ret q) (h3 : r.qhead = b)
    (h4 : (r.blk b).head + n ≤ (r.blk b).tail) (h5 : ∀ k, (r.blk b).head ≤ k → k < (r.blk b).head + n → (r.blk b).elem k = some e ∧ (r.blk b).avail k = true)
    (h : ∀ A y, (∀ k, (r.blk b).head + n ≤ k → A k = (r.blk b).avail k) →
      Ends (rrun B { r with
        blk := upd r.blk b { r.blk b with head := (r.blk b).head + n, avail := A }
        pc := upd r.pc i (.idle y)
        log := r.log ++ drainLog i e n } as) Q) : Ends (rrun B r (drain i n ++ as)) Q := by
  obtain ⟨A, y, a, b⟩ := drain_at n h1 h2 h3 h4 h5
  rw [rrun_append a]
  exact h A y b

theorem deq_then {B i b : Nat} {e : α} {q : FreeList.Res} {r : R α} {as : List (Act α)} {Q : R α → Prop}
    (h1 : r.pc i = .d1) (h2 : r.fpc i = .ret q) (h3 : r.qhead = b)
    (h4 : (r.blk b).head < (r.blk b).tail) (h5 : (r.blk b).elem (r.blk b).head = some e ∧ (r.blk b).avail (r.blk b).head = true)
    (h : Ends (rrun B { r with
        blk := upd r.blk b { r.blk b with head := (r.blk b).head + 1, avail := upd (r.blk b).avail (r.blk b).head false }
        pc := upd r.pc i (.idle (.val (some e)))
        log := r.log ++ [.take i, .ret i (.val (some e))] } as) Q) : Ends (rrun B r (goes i 7 ++ as)) Q := by
  rw [rrun_append (deq_at h1 h2 h3 h4 h5.2), h5.1]
  exact h

/-- Putting back into the head block. -/
theorem rew_at {B : Nat} {r : R α} {i b : Nat} {e : α} {q : FreeList.Res} (h1 : r.pc i = .w1 e) (h2 : r.fpc i = .ret q) (h3 : r.qhead = b)
    (h4 : (r.blk b).head ≠ 0) :
    rrun B r (goes i 7) = some { r with
      blk := upd r.blk b { r.blk b with head := (r.blk b).head - 1, elem := upd (r.blk b).elem ((r.blk b).head - 1) (some e), avail := upd (r.blk b).avail ((r.blk b).head - 1) true }
      pc := upd r.pc i (.idle .yes)
      log := r.log ++ [.rewind i e, .ret i .yes] } := by
  exec [goes, h1, h2, h3, h4]

/-- n elements put back. -/
def backs {α : Type} (i : Nat) (e : α) : Nat → List (Act α)
  | 0 => []
  | n + 1 => .start i (.rewind e) :: goes i 7 ++ backs i e n
def backsLog {α : Type} (i : Nat) (e : α) : Nat → List (Ev α)
  | 0 => []
  | n + 1 => [.call i (.rewind e), .rewind i e, .ret i .yes] ++ backsLog i e n

theorem backs_at {B i b : Nat} {e : α} {q : FreeList.Res} : ∀ (n : Nat) {r : R α} {x : Ret α}, r.pc i = .idle x → r.fpc i = .ret q → r.qhead = b →
    n ≤ (r.blk b).head → (∀ k, (r.blk b).head ≤ k → k < (r.blk b).tail → (r.blk b).elem k = some e ∧ (r.blk b).avail k = true) →
    ∃ E A y, rrun B r (backs i e n) = some { r with
      blk := upd r.blk b { r.blk b with head := (r.blk b).head - n, elem := E, avail := A }
      pc := upd r.pc i (.idle y)
      log := r.log ++ backsLog i e n } ∧
      (∀ k, (r.blk b).head - n ≤ k → k < (r.blk b).tail → E k = some e ∧ A k = true)
  | 0, r, x, h1, h2, h3, h4, h5 => by
    refine ⟨(r.blk b).elem, (r.blk b).avail, x, ?_, by simpa using h5⟩
    simp [backs, rrun, backsLog, upd_id r.blk, upd_id r.pc i _ h1]
  | n + 1, r, x, h1, h2, h3, h4, h5 => by
    have hf := rew_at (B := B) (r := { r with pc := upd r.pc i (start (.rewind e)), log := r.log ++ [.call i (.rewind e)] }) (i := i) (e := e) (b := b) (by simp [start]) h2 h3 (by simp only; omega)
    simp only [upd_upd] at hf
    obtain ⟨E, A, y, g1, g3⟩ := backs_at (B := B) (i := i) (b := b) (e := e) (q := q) n (x := .yes)
      (r := { r with
        blk := upd r.blk b { r.blk b with head := (r.blk b).head - 1, elem := upd (r.blk b).elem ((r.blk b).head - 1) (some e), avail := upd (r.blk b).avail ((r.blk b).head - 1) true }
        pc := upd r.pc i (.idle .yes)
        log := r.log ++ [.call i (.rewind e)] ++ [.rewind i e, .ret i .yes] }) (by simp) h2 h3 (by simp; omega) (by
          intro k k1 k2
          simp only [upd_same] at k1 k2 ⊢
          by_cases hk : k = (r.blk b).head - 1
          · subst hk; simp
          · simp only [upd, hk, if_false]
            exact h5 k (by omega) k2)
    simp only [upd_same, upd_upd] at g1 g3
    refine ⟨E, A, y, ?_, ?_⟩
    · rw [backs, List.cons_append, start_at h1, rrun_append hf, g1]
      have e : (r.blk b).head - 1 - n = (r.blk b).head - (n + 1) := by omega
      simp [backsLog, e]
    · intro k hk hk'
      exact g3 k (by omega) hk'

theorem backs_then {B i b n : Nat} {e : α} {q : FreeList.Res} {r : R α} {x : Ret α} {as : List (Act α)} {Q : R α → Prop}
    (h1 : r.pc i = .idle x) (h2 : r.fpc i = .ret q) (h3 : r.qhead = b)
    (h4 : n ≤ (r.blk b).head) (h5 : ∀ k, (r.blk b).head ≤ k → k < (r.blk b).tail → (r.blk b).elem k = some e ∧ (r.blk b).avail k = true)
    (h : ∀ E A y, (∀ k, (r.blk b).head - n ≤ k → k < (r.blk b).tail → E k = some e ∧ A k = true) →
      Ends (rrun B { r with
        blk := upd r.blk b { r.blk b with head := (r.blk b).head - n, elem := E, avail := A }
        pc := upd r.pc i (.idle y)
        log := r.log ++ backsLog i e n } as) Q) : Ends (rrun B r (backs i e n ++ as)) Q := by
  obtain ⟨E, A, y, a, b⟩ := backs_at n h1 h2 h3 h4 h5
  rw [rrun_append a]
  exact h E A y b

/-- A dequeue of MPMCQueue from the head block. -/
theorem deqM_at {B : Nat} {r : R α} {i b c : Nat} {nx : Option Nat} {fd : Bool} {q : FreeList.Res} (h1 : r.pc i = .m1) (h2 : r.fpc i = .ret q) (h3 : r.qhead = b)
    (h0 : r.node b = ⟨nx, c + 1, fd⟩) (h4 : (r.blk b).head < (r.blk b).tail) (h5 : (r.blk b).avail (r.blk b).head = true) :
    rrun B r (goes i 12) = some { r with
      fpc := upd r.fpc i (.ret .none)
      blk := upd r.blk b { r.blk b with head := (r.blk b).head + 1, avail := upd (r.blk b).avail (r.blk b).head false }
      pc := upd r.pc i (.idle (.val ((r.blk b).elem (r.blk b).head)))
      log := r.log ++ [.take i, .ret i (.val ((r.blk b).elem (r.blk b).head))] } := by
  have h : ¬ (r.blk b).tail ≤ (r.blk b).head := by omega
  have h6 : upd r.node b ⟨nx, c + 1, fd⟩ = r.node := upd_id _ _ _ h0
  exec [goes, h, h1, h2, h3, h5, h0, h6]

def drainM {α : Type} (i : Nat) : Nat → List (Act α)
  | 0 => []
  | n + 1 => .start i .deqM :: goes i 12 ++ drainM i n
def drainMLog {α : Type} (i : Nat) (e : α) : Nat → List (Ev α)
  | 0 => []
  | n + 1 => [.call i .deqM, .take i, .ret i (.val (some e))] ++ drainMLog i e n

theorem drainM_at {B i b c : Nat} {e : α} {nx : Option Nat} {fd : Bool} : ∀ (n : Nat) {r : R α} {x : Ret α}, r.pc i = .idle x → r.fpc i = .ret .none → r.qhead = b → r.node b = ⟨nx, c + 1, fd⟩ →
    (r.blk b).head + n ≤ (r.blk b).tail → (∀ k, (r.blk b).head ≤ k → k < (r.blk b).head + n → (r.blk b).elem k = some e ∧ (r.blk b).avail k = true) →
    ∃ A y, rrun B r (drainM i n) = some { r with
      blk := upd r.blk b { r.blk b with head := (r.blk b).head + n, avail := A }
      pc := upd r.pc i (.idle y)
      log := r.log ++ drainMLog i e n } ∧
      (∀ k, (r.blk b).head + n ≤ k → A k = (r.blk b).avail k)
  | 0, r, x, h1, h2, h3, h0, h4, h5 => by
    refine ⟨(r.blk b).avail, x, ?_, fun k _ => rfl⟩
    simp [drainM, rrun, drainMLog, upd_id r.blk, upd_id r.pc i _ h1]
  | n + 1, r, x, h1, h2, h3, h0, h4, h5 => by
    obtain ⟨he, ha⟩ := h5 (r.blk b).head (by omega) (by omega)
    have hf := deqM_at (B := B) (r := { r with pc := upd r.pc i (start .deqM), log := r.log ++ [.call i .deqM] }) (i := i) (by simp [start]) h2 h3 h0 (by simp only; omega) ha
    have hr : upd r.fpc i (.ret .none) = r.fpc := upd_id _ _ _ h2
    simp only [upd_upd, he, hr] at hf
    obtain ⟨A, y, g1, g3⟩ := drainM_at (B := B) (i := i) (b := b) (e := e) (c := c) (nx := nx) (fd := fd) n (x := .val (some e))
      (r := { r with
        blk := upd r.blk b { r.blk b with head := (r.blk b).head + 1, avail := upd (r.blk b).avail (r.blk b).head false }
        pc := upd r.pc i (.idle (.val (some e)))
        log := r.log ++ [.call i .deqM] ++ [.take i, .ret i (.val (some e))] }) (by simp) h2 h3 h0 (by simp; omega) (by
          intro k k1 k2
          simp only [upd_same] at k1 k2 ⊢
          have : k ≠ (r.blk b).head := by omega
          simp only [upd, this, if_false]
          exact h5 k (by omega) (by omega))
    simp only [upd_same, upd_upd] at g1 g3
    refine ⟨A, y, ?_, ?_⟩
    · rw [drainM, List.cons_append, start_at h1, rrun_append hf, g1]
      simp [drainMLog, Nat.add_assoc, Nat.add_comm 1]
    · intro k hk
      rw [g3 k (by omega)]
      have : k ≠ (r.blk b).head := by omega
      simp [upd, this]

theorem drainM_then {B i b n c : Nat} {e : α} {nx : Option Nat} {fd : Bool} {r : R α} {x : Ret α} {as : List (Act α)} {Q : R α → Prop}
    (h1 : r.pc i = .idle x) (h2 : r.fpc i = .ret .none) (h3 : r.qhead = b) (h0 : r.node b = ⟨nx, c + 1, fd⟩)
    (h4 : (r.blk b).head + n ≤ (r.blk b).tail) (h5 : ∀ k, (r.blk b).head ≤ k → k < (r.blk b).head + n → (r.blk b).elem k = some e ∧ (r.blk b).avail k = true)
    (h : ∀ A y, (∀ k, (r.blk b).head + n ≤ k → A k = (r.blk b).avail k) →
      Ends (rrun B { r with
        blk := upd r.blk b { r.blk b with head := (r.blk b).head + n, avail := A }
        pc := upd r.pc i (.idle y)
        log := r.log ++ drainMLog i e n } as) Q) : Ends (rrun B r (drainM i n ++ as)) Q := by
  obtain ⟨A, y, a, b⟩ := drainM_at n h1 h2 h3 h0 h4 h5
  rw [rrun_append a]
  exact h A y b

macro "clean" ts:(Lean.Parser.Tactic.location)? : tactic =>
  `(tactic| simp only [fn0, fn1, fn2, fn3, fn4, upd_fn0, upd_fn1, upd_fn2, upd_fn3, upd_fn4, Nat.zero_add, List.nil_append, Nat.zero_le, forall_const, List.append_assoc] $(ts)?)

end Queue
end Salticidae
