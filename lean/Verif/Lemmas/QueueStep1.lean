import Verif.Lemmas.QueueInv
/-!
Steps that change nothing shared but the free list.
-/
namespace Salticidae
namespace Queue
open FreeList (upd upd_apply upd_self upd_other)

variable {α : Type} [DecidableEq α]

/-- An event, and the place of thread i changes. -/
theorem inv_ev {B : Nat} {m : Mode} {s : St α} {i : Nat} {p : Pc α} {ev : Ev α} (k : Inv B m s) {r : FreeList.Res} (hf : s.fl.pc i = .ret r)
    (h1 : p.links = none ∧ (s.pc i).links = none) (h2 : p.reads = (s.pc i).reads) (h3 : p.writes = (s.pc i).writes) (h4 : p.role m i)
    (h5 : heldOf p (.ret r) = heldOf (s.pc i) (.ret r)) (h6 : Loc B s i p)
    (h7 : ∀ q, q.q.map some = cont s.blk s.slot s.chain → q.doing i = (s.pc i).doing s.slot →
      ∃ q', Spec.Queue.after q ev = some q' ∧ q'.q = q.q ∧ q'.doing i = p.doing s.slot ∧ ∀ j, j ≠ i → q'.doing j = q.doing j) :
    Inv B m ((s.rcd ev).setPc i p) := by
  have e1 : ((s.rcd ev).setPc i p).pc i = p := upd_self _ _ _
  refine inv_mk (s := s) (i := i) k ⟨k.fl, k.bad, k.hd, k.link, k.nd, k.mem, k.full, k.tl, k.zero, k.ht, k.st, k.un, k.qt1, k.qs, k.hid, k.fr, k.fz, k.sl, k.sd, k.rdk⟩
    (fun j hj => upd_other _ _ hj) (fun _ _ => rfl) (fun _ _ => rfl) (fun j _ => rely_refl rfl rfl rfl rfl rfl rfl rfl) ?_ ?_ ?_ ?_ ?_ ?_ ?_ ?_ (leg_event rfl ?_)
  · have := k.qt2; simp only [St.setPc, St.rcd, upd_apply]; grind
  · have := k.lk; simp only [St.setPc, St.rcd, upd_apply]; grind
  · have := k.rd; simp only [St.setPc, St.rcd, upd_apply]; grind
  · have := k.wr; simp only [St.setPc, St.rcd, upd_apply]; grind
  · rw [e1]; exact h4
  · intro u hu
    simp only [St.setPc, St.rcd, hf] at hu
    grind
  · rw [e1]
    show s.fl.held i = heldOf p (s.fl.pc i)
    rw [hf, h5, ← hf]; exact k.held i
  · rw [e1]
    have : Loc B ((s.rcd ev).setPc i p) i p = Loc B s i p := by cases p <;> rfl
    rw [this]; exact h6
  · intro q hq hq2
    obtain ⟨q', a, b, c, d⟩ := h7 q hq hq2
    exact ⟨q', a, b ▸ hq, by rw [e1]; exact c, d⟩

/-- The free list's operation of thread i begins, nothing else in it changes but references thread i holds. -/
theorem inv_fl0 {B : Nat} {m : Mode} {s : St α} {i : Nat} {p : Pc α} {fl : FreeList.St} {f : FreeList.Pc} {lg : List (Ev α)}
    (k : Inv B m s) {r : FreeList.Res} (hf : s.fl.pc i = .ret r)
    (g1 : FreeList.Inv fl) (g2 : fl.bad = false) (g3 : fl.node = s.fl.node) (g4 : fl.alloc = s.fl.alloc) (g5 : fl.phase = s.fl.phase)
    (g6 : fl.pc = upd s.fl.pc i f) (g7 : ∀ u, f ≠ .push u) (g8 : ∀ j, j ≠ i → fl.held j = s.fl.held j)
    (h1 : p.links = none ∧ (s.pc i).links = none) (h2 : p.reads = (s.pc i).reads) (h3 : p.writes = (s.pc i).writes) (h4 : p.role m i)
    (h5 : fl.held i = heldOf p f) (h6 : Loc B { s with fl := fl } i p) (h6' : ∀ u, (f = .ref1 u ∨ ∃ n, f = .ref2 u n) → p.wants = some u)
    (h7 : ∀ q, Spec.Queue.replay Spec.Queue.empty s.log = some q → q.q.map some = cont s.blk s.slot s.chain → q.doing i = (s.pc i).doing s.slot →
      ∃ q', Spec.Queue.replay Spec.Queue.empty lg = some q' ∧ q'.q.map some = cont s.blk s.slot s.chain ∧
        q'.doing i = p.doing s.slot ∧ ∀ j, j ≠ i → q'.doing j = q.doing j) :
    Inv B m { s with fl := fl, log := lg, pc := upd s.pc i p } := by
  have hum : ∀ u, (∃ j, s.fl.pc j = .push u) ↔ ∃ j, fl.pc j = .push u := by
    intro u
    rw [g6]
    constructor
    · rintro ⟨j, hj⟩
      refine ⟨j, ?_⟩
      rw [upd_other _ _ (fun e => by rw [e, hf] at hj; cases hj)]; exact hj
    · rintro ⟨j, hj⟩
      by_cases e : j = i
      · subst e; rw [upd_self] at hj; exact absurd hj (g7 u)
      · rw [upd_other _ _ e] at hj; exact ⟨j, hj⟩
  have hsp : ∀ u (lg : List (Ev α)) pc, Spent B { s with fl := fl, log := lg, pc := pc } u = Spent B s u := by intro u lg pc; simp only [Spent, g5]
  have hun : ∀ u (lg : List (Ev α)) pc, Unmarked B { s with fl := fl, log := lg, pc := pc } u ↔ Unmarked B s u := by intro u lg pc; simp only [Unmarked, hsp, hum]
  refine inv_mk (s := s) (i := i) k ⟨g1, g2, k.hd, k.link, k.nd, k.mem, k.full, k.tl, k.zero, k.ht, ?_, ?_, k.qt1, k.qs, ?_, ?_, ?_, k.sl, k.sd, ?_⟩
    (fun j hj => upd_other _ _ hj) g8 (fun j hj => by simp only [g6]; exact upd_other _ _ hj) ?_ ?_ ?_ ?_ ?_ ?_ ?_ ?_ ?_ ?_
  · have := k.st; simp only [g4, g5]; exact this
  · have := k.un; simp only [g4]; exact this
  · have := k.hid; simp only [g3]; exact this
  · have := k.fr; simp only [g3, hun]; exact this
  · have := k.fz; simp only [g3, g4, ← hum]; exact this
  · have := k.rdk; simp only [hsp]; exact this
  · intro j hj
    constructor <;> simp only [hsp, hun, Good, MGood, g3]
    case got => rw [g6, upd_other _ _ hj]; grind
    case ok => rw [g6, upd_other _ _ hj]; grind
    all_goals grind
  · have := k.qt2; simp only [upd_apply]; grind
  · have := k.lk; simp only [upd_apply]; grind
  · have := k.rd; simp only [upd_apply]; grind
  · have := k.wr; simp only [upd_apply]; grind
  · simp only [upd_self]; exact h4
  · simp only [upd_self, g6]; exact h6'
  · simp only [upd_self, g6]; exact h5
  · simp only [upd_self]
    have : Loc B { s with fl := fl, log := lg, pc := upd s.pc i p } i p = Loc B { s with fl := fl } i p := by cases p <;> rfl
    rw [this]; exact h6
  · simp only [upd_self]; exact h7

theorem idle_ret {s : FreeList.St} {i : Nat} {r : FreeList.Res} (h : s.pc i = .ret r) : s.idle i = true := by
  simp [FreeList.St.idle, h]

/-- A reference is given back. -/
theorem inv_release {B : Nat} {m : Mode} {s : St α} {i t : Nat} {p : Pc α} {lg : List (Ev α)} (k : Inv B m s) {r : FreeList.Res} (hf : s.fl.pc i = .ret r)
    (ht : s.fl.held i = [t])
    (h1 : p.links = none ∧ (s.pc i).links = none) (h2 : p.reads = (s.pc i).reads) (h3 : p.writes = (s.pc i).writes) (h4 : p.role m i)
    (h5 : p.refs = none ∧ p.wants = none) (h6 : Loc B (s.call i (.release t)) i p)
    (h7 : ∀ q, Spec.Queue.replay Spec.Queue.empty s.log = some q → q.q.map some = cont s.blk s.slot s.chain → q.doing i = (s.pc i).doing s.slot →
      ∃ q', Spec.Queue.replay Spec.Queue.empty lg = some q' ∧ q'.q.map some = cont s.blk s.slot s.chain ∧
        q'.doing i = p.doing s.slot ∧ ∀ j, j ≠ i → q'.doing j = q.doing j) :
    Inv B m (({ s with log := lg }.call i (.release t)).setPc i p) := by
  have hm : t ∈ s.fl.held i := by rw [ht]; simp
  have hb : (FreeList.call s.fl i (.release t)).bad = false := by simp only [FreeList.call, if_pos hm]; exact k.bad
  refine inv_fl0 (s := s) (fl := FreeList.call s.fl i (.release t)) (lg := lg) (f := .rel t false .ret) k hf (FreeList.inv_call k.fl (idle_ret hf) rfl hb) hb ?_ ?_ ?_ ?_ (by simp) ?_ h1 h2 h3 h4 ?_ h6 (by simp) h7
  · simp only [FreeList.call, if_pos hm]
  · simp only [FreeList.call, if_pos hm]
  · simp only [FreeList.call, if_pos hm]
  · simp only [FreeList.call, if_pos hm]
  · intro j hj; simp only [FreeList.call, if_pos hm]; rw [upd_other _ _ hj]
  · simp only [FreeList.call, if_pos hm, upd_self, heldOf, h5.1, h5.2]; simp [ht]

/-- A reference is asked for. -/
theorem inv_ref {B : Nat} {m : Mode} {s : St α} {i t : Nat} {p : Pc α} (k : Inv B m s) {r : FreeList.Res} (hf : s.fl.pc i = .ret r)
    (ht : s.fl.held i = []) (ha : t < s.fl.alloc)
    (h1 : p.links = none ∧ (s.pc i).links = none) (h2 : p.reads = (s.pc i).reads) (h3 : p.writes = (s.pc i).writes) (h4 : p.role m i)
    (h5 : p.wants = some t) (h6 : Loc B (s.call i (.ref t)) i p) (h7 : p.doing s.slot = (s.pc i).doing s.slot) :
    Inv B m ((s.call i (.ref t)).setPc i p) := by
  have hb : (FreeList.call s.fl i (.ref t)).bad = false := k.bad
  refine inv_fl0 (s := s) (fl := FreeList.call s.fl i (.ref t)) (lg := s.log) (f := .ref1 t) k hf (FreeList.inv_call k.fl (idle_ret hf) (by simpa [FreeList.Op.exists] using ha) hb) hb rfl rfl rfl rfl (by simp) (fun _ _ => rfl) h1 h2 h3 h4 ?_ h6 ?_ ?_
  · show s.fl.held i = _
    rw [ht, heldOf, h5]; simp
  · intro u hu; rw [h5]; simpa using hu
  · intro q a b c; exact ⟨q, a, b, c.trans h7.symm, fun _ _ => rfl⟩

/-- A block is asked for. -/
theorem inv_pop {B : Nat} {m : Mode} {s : St α} {i : Nat} {p : Pc α} (k : Inv B m s) {r : FreeList.Res} (hf : s.fl.pc i = .ret r)
    (h1 : p.links = none ∧ (s.pc i).links = none) (h2 : p.reads = (s.pc i).reads) (h3 : p.writes = (s.pc i).writes) (h4 : p.role m i)
    (h5 : p.wants = none ∧ (s.pc i).wants = none ∧ p.refs = (s.pc i).refs) (h6 : Loc B (s.call i .pop) i p) (h7 : p.doing s.slot = (s.pc i).doing s.slot) :
    Inv B m ((s.call i .pop).setPc i p) := by
  have hb : (FreeList.call s.fl i .pop).bad = false := k.bad
  refine inv_fl0 (s := s) (fl := FreeList.call s.fl i .pop) (lg := s.log) (f := .pop1) k hf (FreeList.inv_call k.fl (idle_ret hf) rfl hb) hb rfl rfl rfl rfl (by simp) (fun _ _ => rfl) h1 h2 h3 h4 ?_ h6 ?_ ?_
  · show s.fl.held i = _
    rw [k.held i, heldOf, heldOf, h5.1, h5.2.1, h5.2.2]
  · intro u hu; simp at hu
  · intro q a b c; exact ⟨q, a, b, c.trans h7.symm, fun _ _ => rfl⟩

end Queue
end Salticidae
