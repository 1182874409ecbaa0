import Verif.Lemmas.QueueMicro
import Verif.Lemmas.QueueStep7
/-!
Every step keeps the invariant.
-/
namespace Salticidae
namespace Queue
open FreeList (upd upd_apply upd_self upd_other)

variable {α : Type} [DecidableEq α]

theorem leg_id {s : St α} {i : Nat} {d : Spec.Queue.Doing α} (h : d = (s.pc i).doing s.slot) :
    ∀ q, Spec.Queue.replay Spec.Queue.empty s.log = some q → q.q.map some = cont s.blk s.slot s.chain → q.doing i = (s.pc i).doing s.slot →
      ∃ q', Spec.Queue.replay Spec.Queue.empty s.log = some q' ∧ q'.q.map some = cont s.blk s.slot s.chain ∧
        q'.doing i = d ∧ ∀ j, j ≠ i → q'.doing j = q.doing j :=
  fun q h1 h2 h3 => ⟨q, h1, h2, h3.trans h.symm, fun _ _ => rfl⟩

theorem leg_ev {s : St α} {i : Nat} {d : Spec.Queue.Doing α} {ev : Ev α}
    (h : ∀ q, q.q.map some = cont s.blk s.slot s.chain → q.doing i = (s.pc i).doing s.slot →
      ∃ q', Spec.Queue.after q ev = some q' ∧ q'.q = q.q ∧ q'.doing i = d ∧ ∀ j, j ≠ i → q'.doing j = q.doing j) :
    ∀ q, Spec.Queue.replay Spec.Queue.empty s.log = some q → q.q.map some = cont s.blk s.slot s.chain → q.doing i = (s.pc i).doing s.slot →
      ∃ q', Spec.Queue.replay Spec.Queue.empty (s.log ++ [ev]) = some q' ∧ q'.q.map some = cont s.blk s.slot s.chain ∧
        q'.doing i = d ∧ ∀ j, j ≠ i → q'.doing j = q.doing j := by
  intro q h1 h2 h3
  obtain ⟨q', h4, h5, h6, h7⟩ := h q h2 h3
  refine ⟨q', ?_, by rw [h5]; exact h2, h6, h7⟩
  rw [Spec.Queue.replay_append, h1]
  simp [Spec.Queue.replay, h4]

/-- A reference is given back; nothing else happens. -/
theorem inv_rel {B : Nat} {m : Mode} {s : St α} {i t : Nat} {p : Pc α} (k : Inv B m s) {r : FreeList.Res} (hf : s.fl.pc i = .ret r)
    (ht : heldOf (s.pc i) (.ret r) = [t])
    (h1 : p.links = none ∧ (s.pc i).links = none) (h2 : p.reads = (s.pc i).reads) (h3 : p.writes = (s.pc i).writes) (h4 : p.role m i)
    (h5 : p.refs = none ∧ p.wants = none) (h6 : ∀ s' : St α, Loc B s' i p) (h7 : p.doing s.slot = (s.pc i).doing s.slot) :
    Inv B m ((s.call i (.release t)).setPc i p) :=
  inv_release (lg := s.log) k hf (by rw [k.held i, hf, ht]) h1 h2 h3 h4 h5 (h6 _) (leg_id h7)

/-- An operation returns. -/
theorem inv_return {B : Nat} {m : Mode} {s : St α} {i : Nat} {x : Ret α} (k : Inv B m s) {r : FreeList.Res} (hf : s.fl.pc i = .ret r)
    (h1 : (s.pc i).links = none) (h2 : (s.pc i).reads = none) (h3 : (s.pc i).writes = none) (h5 : heldOf (s.pc i) (.ret r) = [])
    (h7 : (s.pc i).doing s.slot = .done x ∨ (s.pc i).doing s.slot = .called .add ∧ x = .none) : Inv B m (s.ret i x) := by
  refine inv_ev k hf ⟨rfl, h1⟩ h2.symm h3.symm trivial h5.symm trivial ?_
  intro q _ hd
  refine ⟨q.set i .nothing, ?_, rfl, ?_, ?_⟩
  · rcases h7 with h7 | h7
    · rw [h7] at hd; simp [Spec.Queue.after, hd]
    · rw [h7.1] at hd; simp [Spec.Queue.after, hd, h7.2]
  · simp [Spec.Queue.Q.set, Pc.doing]
  · intro j hj; simp [Spec.Queue.Q.set, hj]

theorem empty_cont {B : Nat} {m : Mode} {s : St α} (k : Inv B m s) (h1 : (s.blk s.qhead).tail ≤ (s.blk s.qhead).head) (h2 : (s.blk s.qhead).next = none) :
    cont s.blk s.slot s.chain = [] := by
  have hl := (linked_last k.nd k.link ((k.mem _).2 (head_chain k))).1 h2
  obtain ⟨l, hc, hnl⟩ := chain_eq k
  have : l = [] := by
    cases l with
    | nil => rfl
    | cons a l =>
      rw [hc, List.getLast?_cons_cons] at hl
      exact absurd (List.mem_of_getLast? hl) hnl
  rw [hc, this, cont_nothing h1]; rfl

theorem nx_none {B : Nat} {m : Mode} {s : St α} (k : Inv B m s) {h : Nat} (h1 : s.stat h = .chain) (h2 : (s.blk h).tail < B) : (s.blk h).next = none := by
  cases hx : (s.blk h).next with
  | none => rfl
  | some y => have := k.full h h1 (by rw [hx]; simp); omega

/-- What "nothing there" does to the history. -/
theorem ev_empty {s : St α} {i : Nat} (hc : cont s.blk s.slot s.chain = [])
    (hd : (s.pc i).doing s.slot = .called .deq ∨ (s.pc i).doing s.slot = .called .deqM) :
    ∀ q, q.q.map some = cont s.blk s.slot s.chain → q.doing i = (s.pc i).doing s.slot →
      ∃ q', Spec.Queue.after q (.empty i) = some q' ∧ q'.q = q.q ∧ q'.doing i = .done .no ∧ ∀ j, j ≠ i → q'.doing j = q.doing j := by
  intro q hq hdo
  rw [hc] at hq
  have hq : q.q = [] := List.map_eq_nil_iff.1 hq
  refine ⟨q.set i (.done .no), ?_, rfl, ?_, ?_⟩
  · rcases hd with h1 | h1 <;> rw [h1] at hdo <;> simp [Spec.Queue.after, hdo, hq]
  · simp [Spec.Queue.Q.set]
  · intro j hj; simp [Spec.Queue.Q.set, hj]

theorem setPc_setPc (s : St α) (i : Nat) (p p' : Pc α) : (s.setPc i p).setPc i p' = s.setPc i p' := by
  simp only [St.setPc, upd_upd]

/-- The consumer finds nothing. -/
theorem inv_none {B : Nat} {m : Mode} {s : St α} {i : Nat} (k : Inv B m s) {r : FreeList.Res} (hf : s.fl.pc i = .ret r)
    (hc : cont s.blk s.slot s.chain = []) (hd : (s.pc i).doing s.slot = .called .deq)
    (h1 : (s.pc i).links = none) (h2 : (s.pc i).reads = none) (h3 : (s.pc i).writes = none) (h5 : heldOf (s.pc i) (.ret r) = []) :
    Inv B m ((s.rcd (.empty i)).ret i .no) := by
  have k1 : Inv B m ((s.rcd (.empty i)).setPc i .eF) :=
    inv_ev k hf ⟨rfl, h1⟩ h2.symm h3.symm trivial h5.symm trivial (ev_empty hc (.inl hd))
  have hp : ((s.rcd (.empty i)).setPc i .eF).pc i = .eF := upd_self _ _ _
  have k2 := inv_return (x := .no) k1 (r := r) hf (by rw [hp]; rfl) (by rw [hp]; rfl) (by rw [hp]; rfl) (by rw [hp]; rfl) (by rw [hp]; exact .inl rfl)
  have e : (s.rcd (.empty i)).ret i .no = ((s.rcd (.empty i)).setPc i .eF).ret i .no := by
    simp only [St.ret, St.setPc, St.rcd, upd_upd]
  rw [e]; exact k2

theorem good_alloc {B : Nat} {m : Mode} {s : St α} (k : Inv B m s) {t : Nat} (h : Good B s t) : t ≠ s.fl.alloc := by
  intro e
  have h1 := k.un t (by omega)
  have h2 := k.fl.fresh t (by omega)
  rcases h with h | h
  · rw [h1.1] at h; cases h.1
  · have := h.2.2.2.2; rw [h2.2] at this; simp at this

theorem enq_ok {B : Nat} {m : Mode} {s s' : St α} {i : Nat} {ch : Bool} {r : FreeList.Res} (k : Inv B m s) (hf : s.fl.pc i = .ret r)
    (h : enqStep B s i ch r (s.pc i) = some s') : Inv B m s' := by
  have hl := k.loc i
  cases hp : s.pc i <;> rw [hp] at h hl <;> simp only [enqStep] at h
  case e1 e unb =>
    cases h
    refine inv_ref k hf (by rw [k.held i, hp]; rfl) ?_ ⟨rfl, by rw [hp]; rfl⟩ (by rw [hp]; rfl) (by rw [hp]; rfl) trivial rfl k.qs (by rw [hp]; rfl)
    rcases Nat.lt_or_ge s.qtail s.fl.alloc with h' | h'
    · exact h'
    · have := (k.un _ h').2; rw [k.qs] at this; cases this
  case e2 e unb t =>
    have hl : s.seen t = true := hl
    split at h
    · rename_i hr
      subst hr
      split at h
      · cases h
        exact inv_rel k hf (by rw [hp]; rfl) ⟨rfl, by rw [hp]; rfl⟩ (by rw [hp]; rfl) (by rw [hp]; rfl) trivial ⟨rfl, rfl⟩ (fun _ => trivial) (by rw [hp]; rfl)
      · rename_i hfr
        cases h
        have hfr : (s.fl.node t).freed = false := by simpa using hfr
        refine inv_pc k hf ⟨rfl, by rw [hp]; rfl⟩ (by rw [hp]; rfl) (by rw [hp]; rfl) trivial (by rw [hp]; rfl) ?_ (by rw [hp]; rfl)
        rcases k.fr t hl hfr with h1 | h1
        · left
          refine ⟨h1, ?_⟩
          cases hx : s.hid t with
          | none => rfl
          | some j => have := (k.hid t j hx).2.2; rw [hfr, hl] at this; simp at this
        · right; exact h1.1
    · rename_i hr
      cases h
      refine inv_pc k hf ⟨rfl, by rw [hp]; rfl⟩ (by rw [hp]; rfl) (by rw [hp]; rfl) trivial ?_ trivial (by rw [hp]; rfl)
      rw [hp]; simp [heldOf, Pc.wants, Pc.refs, hr]
  case e5 e unb t =>
    have hl : Good B s t := hl
    cases h
    split
    · rename_i ht
      refine inv_pc k hf ⟨rfl, by rw [hp]; rfl⟩ (by rw [hp]; rfl) (by rw [hp]; rfl) trivial (by rw [hp]; rfl) ⟨hl, ?_⟩ (by rw [hp]; rfl)
      rcases hl with h1 | h1
      · have := k.tl t h1.1; omega
      · exact h1.2.1
    · rename_i ht
      exact inv_pc k hf ⟨rfl, by rw [hp]; rfl⟩ (by rw [hp]; rfl) (by rw [hp]; rfl) trivial (by rw [hp]; rfl) ⟨hl, by omega⟩ (by rw [hp]; rfl)
  case e6 e unb t =>
    obtain ⟨hg, ht⟩ := hl
    split at h
    · cases h
      refine inv_pop k hf ⟨rfl, by rw [hp]; rfl⟩ (by rw [hp]; rfl) (by rw [hp]; rfl) trivial ⟨rfl, by rw [hp]; rfl, by rw [hp]; rfl⟩ ⟨hg, ht, ?_⟩ (by rw [hp]; rfl)
      intro u hu
      have hu' : gotF (upd s.fl.pc i .pop1 i) = some u := hu
      rw [upd_self] at hu'; cases hu'
    · cases h
      exact inv_rel k hf (by rw [hp]; rfl) ⟨rfl, by rw [hp]; rfl⟩ (by rw [hp]; rfl) (by rw [hp]; rfl) trivial ⟨rfl, rfl⟩ (fun _ => trivial) (by rw [hp]; rfl)
  case e7 e unb t =>
    obtain ⟨hg, ht, hgot⟩ := hl
    split at h
    · rename_i hr
      cases h
      refine inv_release (t := t) (p := .eF) (lg := s.log ++ [.refuse i]) k hf (by rw [k.held i, hp]; rfl) ⟨rfl, by rw [hp]; rfl⟩ (by rw [hp]; rfl) (by rw [hp]; rfl) trivial ⟨rfl, rfl⟩ trivial (leg_ev ?_)
      intro q _ hd
      rw [hp, hr.2] at hd
      have hd : q.doing i = .called (.enq e false) := hd
      refine ⟨q.set i (.done .no), by simp [Spec.Queue.after, hd], rfl, by simp [Spec.Queue.Q.set, Pc.doing], fun j hj => by simp [Spec.Queue.Q.set, hj]⟩
    · rename_i hr
      cases r <;> simp only [gotBlk] at h
      case empty =>
        cases h
        refine inv_new k hf ⟨rfl, by rw [hp]; rfl⟩ (by rw [hp]; rfl) (by rw [hp]; rfl) trivial ⟨rfl, by rw [hp]; rfl, by rw [hp]; rfl⟩ (fun hgood => ⟨hgood t hg (good_alloc k hg), ht, upd_self _ _ _, ?_⟩) (by rw [hp]; rfl)
        intro hu; exact absurd ⟨rfl, hu⟩ hr
      case popped n =>
        cases h
        have := hgot n (by rw [hf]; rfl)
        exact inv_pc k hf ⟨rfl, by rw [hp]; rfl⟩ (by rw [hp]; rfl) (by rw [hp]; rfl) trivial (by rw [hp]; rfl) ⟨hg, ht, this.1, fun _ => this.2⟩ (by rw [hp]; rfl)
      all_goals cases h
  case e8 e unb t n =>
    obtain ⟨hg, ht, hn, hfr⟩ := hl
    cases h
    refine inv_own k hf hn ⟨rfl, rfl⟩ ⟨rfl, by rw [hp]; rfl⟩ (by rw [hp]; rfl) (by rw [hp]; rfl) trivial ⟨rfl, by rw [hp]; rfl, by rw [hp]; rfl⟩ (fun hgood => ⟨(hgood t hg).1, ?_, hn, hfr, ?_⟩) (by rw [hp]; rfl)
    · simp only [St.setBlk]; rw [upd_other _ _ (hgood t hg).2]; exact ht
    · simp only [St.setBlk]; rw [upd_self]
  case e9 e unb t n =>
    obtain ⟨hg, ht, hn, hfr, hh⟩ := hl
    cases h
    refine inv_own k hf hn ⟨rfl, rfl⟩ ⟨rfl, by rw [hp]; rfl⟩ (by rw [hp]; rfl) (by rw [hp]; rfl) trivial ⟨rfl, by rw [hp]; rfl, by rw [hp]; rfl⟩ (fun hgood => ⟨(hgood t hg).1, ?_, hn, hfr, ?_, ?_⟩) (by rw [hp]; rfl)
    · simp only [St.setBlk]; rw [upd_other _ _ (hgood t hg).2]; exact ht
    · simp only [St.setBlk]; rw [upd_self]; exact hh
    · simp only [St.setBlk]; rw [upd_self]
  case e10 e unb t n =>
    obtain ⟨hg, ht, hn, hfr, hh, hh2⟩ := hl
    cases h
    refine inv_own k hf hn ⟨rfl, rfl⟩ ⟨rfl, by rw [hp]; rfl⟩ (by rw [hp]; rfl) (by rw [hp]; rfl) trivial ⟨rfl, by rw [hp]; rfl, by rw [hp]; rfl⟩ (fun hgood => ⟨(hgood t hg).1, ?_, hn, hfr, ?_, ?_, ?_⟩) (by rw [hp]; rfl)
    · simp only [St.setBlk]; rw [upd_other _ _ (hgood t hg).2]; exact ht
    · simp only [St.setBlk]; rw [upd_self]; exact hh
    · simp only [St.setBlk]; rw [upd_self]; exact hh2
    · simp only [St.setBlk]; rw [upd_self]
  case e11 e unb t n =>
    split at h
    · rename_i hc
      cases h
      simp only [Bool.and_eq_true, beq_iff_eq] at hc
      exact inv_link k hf hp hc.2
    · cases h
      obtain ⟨hg, ht, hn, _⟩ := hl
      exact inv_push k hf hn ⟨rfl, by rw [hp]; rfl⟩ (by rw [hp]; rfl) (by rw [hp]; rfl) trivial ⟨rfl, by rw [hp]; rfl, by rw [hp]; rfl⟩ (fun _ => trivial) (by rw [hp]; rfl)
  case e12 e unb t n => cases h; exact inv_settail k hf hp
  case e13 e unb t n => cases h; exact inv_clear k hf hp
  case e14 e unb t =>
    cases h
    exact inv_rel k hf (by rw [hp]; rfl) ⟨rfl, by rw [hp]; rfl⟩ (by rw [hp]; rfl) (by rw [hp]; rfl) trivial ⟨rfl, rfl⟩ (fun _ => trivial) (by rw [hp]; rfl)
  case eR e unb =>
    cases h
    exact inv_pc k hf ⟨rfl, by rw [hp]; rfl⟩ (by rw [hp]; rfl) (by rw [hp]; rfl) trivial (by rw [hp]; rfl) trivial (by rw [hp]; rfl)
  case eF =>
    cases h
    exact inv_return k hf (by rw [hp]; rfl) (by rw [hp]; rfl) (by rw [hp]; rfl) (by rw [hp]; rfl) (by rw [hp]; exact .inl rfl)
  case e15 e unb t tt =>
    split at h
    · rename_i hc
      cases h
      simp only [Bool.and_eq_true, beq_iff_eq] at hc
      exact inv_claim k hf hp hc.2
    · cases h
      exact inv_rel k hf (by rw [hp]; rfl) ⟨rfl, by rw [hp]; rfl⟩ (by rw [hp]; rfl) (by rw [hp]; rfl) trivial ⟨rfl, rfl⟩ (fun _ => trivial) (by rw [hp]; rfl)
  case e16 e unb t tt => cases h; exact inv_write k hf hp
  case e17 e unb t tt => cases h; exact inv_avail k hf hp
  case e18 t =>
    cases h
    exact inv_rel k hf (by rw [hp]; rfl) ⟨rfl, by rw [hp]; rfl⟩ (by rw [hp]; rfl) (by rw [hp]; rfl) trivial ⟨rfl, rfl⟩ (fun _ => trivial) (by rw [hp]; rfl)
  case eD =>
    cases h
    exact inv_return k hf (by rw [hp]; rfl) (by rw [hp]; rfl) (by rw [hp]; rfl) (by rw [hp]; rfl) (by rw [hp]; exact .inl rfl)
  all_goals cases h

theorem read_val {B : Nat} {m : Mode} {s : St α} {i h hh : Nat} (k : Inv B m s) (hr : (s.pc i).reads = some (h, hh)) (ha : (s.blk h).avail hh = true) :
    (s.blk h).elem hh = s.slot h hh := by
  have hri : s.rd h hh = some i := (k.rd h hh i).2 hr
  rcases k.sl h hh (.inr (by rw [hri]; simp)) with h1 | h1
  · exact h1.2.2
  · rw [ha] at h1; cases h1.2

theorem deq_ok {B : Nat} {m : Mode} {s s' : St α} {i : Nat} {r : FreeList.Res} (hB : 0 < B) (k : Inv B m s) (hf : s.fl.pc i = .ret r)
    (h : deqStep B s i (s.pc i) = some s') : Inv B m s' := by
  have hl := k.loc i
  have hm := k.role i
  cases hp : s.pc i <;> rw [hp] at h hl hm <;> simp only [deqStep] at h
  case d1 =>
    cases h
    exact inv_pc k hf ⟨rfl, by rw [hp]; rfl⟩ (by rw [hp]; rfl) (by rw [hp]; rfl) hm (by rw [hp]; rfl) rfl (by rw [hp]; rfl)
  case d2 h' =>
    cases h
    exact inv_pc k hf ⟨rfl, by rw [hp]; rfl⟩ (by rw [hp]; rfl) (by rw [hp]; rfl) hm (by rw [hp]; rfl) ⟨hl, rfl⟩ (by rw [hp]; rfl)
  case d3 h' hh =>
    obtain ⟨hq, hhd⟩ := hl
    have hst : s.stat h' = .chain := hq ▸ head_chain k
    have h1 := k.ht h' hst
    have h2 := k.tl h' hst
    split at h
    · split at h
      · cases h
        rename_i h3 h4
        refine inv_none k hf (empty_cont k ?_ ?_) (by rw [hp]; rfl) (by rw [hp]; rfl) (by rw [hp]; rfl) (by rw [hp]; rfl) (by rw [hp]; rfl)
        · rw [← hq]; omega
        · rw [← hq]; exact nx_none k hst h4
      · cases h
        exact inv_pc k hf ⟨rfl, by rw [hp]; rfl⟩ (by rw [hp]; rfl) (by rw [hp]; rfl) hm (by rw [hp]; rfl) ⟨hq, by omega, by omega⟩ (by rw [hp]; rfl)
    · cases h
      exact inv_pc k hf ⟨rfl, by rw [hp]; rfl⟩ (by rw [hp]; rfl) (by rw [hp]; rfl) hm (by rw [hp]; rfl) ⟨hq, hhd, by omega⟩ (by rw [hp]; rfl)
  case d4 h' =>
    obtain ⟨hq, ht, hhd⟩ := hl
    split at h
    · rename_i hx
      cases h
      refine inv_none k hf (empty_cont k ?_ ?_) (by rw [hp]; rfl) (by rw [hp]; rfl) (by rw [hp]; rfl) (by rw [hp]; rfl) (by rw [hp]; rfl)
      · rw [← hq]; omega
      · rw [← hq]; exact hx
    · rename_i hx
      cases h
      exact inv_pc k hf ⟨rfl, by rw [hp]; rfl⟩ (by rw [hp]; rfl) (by rw [hp]; rfl) hm (by rw [hp]; rfl) ⟨hq, ht, hhd, hx⟩ (by rw [hp]; rfl)
  case d5 h' n =>
    obtain ⟨hq, ht, hhd, hx⟩ := hl
    cases h
    exact inv_retire hB k hf hq ht hhd hx (.inl hm) ⟨rfl, by rw [hp]; rfl⟩ (by rw [hp]; rfl) (by rw [hp]; rfl) hm ⟨rfl, by rw [hp]; rfl, by rw [hp]; rfl⟩ (fun _ => trivial) (by rw [hp]; rfl)
  case d6 =>
    cases h
    exact inv_pc k hf ⟨rfl, by rw [hp]; rfl⟩ (by rw [hp]; rfl) (by rw [hp]; rfl) hm (by rw [hp]; rfl) trivial (by rw [hp]; rfl)
  case d7 h' hh =>
    obtain ⟨hq, hhd, hlt⟩ := hl
    cases h
    exact inv_take k hf hq hhd.symm hlt (.inl hm) (by rw [hp]; exact .inl rfl) rfl ⟨by rw [hp]; rfl, rfl⟩ ⟨by rw [hp]; rfl, rfl⟩ ⟨rfl, by rw [hp]; rfl⟩ hm (by rw [hp]; rfl)
      (fun s' hs' => hs'.symm)
  case d8 h' hh =>
    cases h
    split
    · rename_i ha
      exact inv_pc k hf ⟨rfl, by rw [hp]; rfl⟩ (by rw [hp]; rfl) (by rw [hp]; rfl) hm (by rw [hp]; rfl) ⟨hl, ha⟩ (by rw [hp]; rfl)
    · exact inv_pc k hf ⟨rfl, by rw [hp]; rfl⟩ (by rw [hp]) (by rw [hp]) hm (by rw [hp]) hl (by rw [hp])
  case d9 h' hh =>
    cases h
    refine inv_pc k hf ⟨rfl, by rw [hp]; rfl⟩ (by rw [hp]; rfl) (by rw [hp]; rfl) hm (by rw [hp]; rfl) hl ?_
    rw [hp]
    show Spec.Queue.Doing.done (.val ((s.blk h').elem hh)) = .done (.val (s.slot h' hh))
    rw [read_val k (i := i) (by rw [hp]; rfl) hl.2]
  case d10 h' hh v =>
    cases h
    refine inv_untake (lg := s.log ++ [.ret i (.val v)]) (p := .idle (.val v)) k hf rfl hl.2 ⟨by rw [hp]; rfl, rfl⟩ ⟨by rw [hp]; rfl, rfl⟩ ⟨rfl, by rw [hp]; rfl⟩ trivial (by rw [hp]; rfl)
      (fun _ => trivial) ?_
    intro q h1 h2
    rw [hp] at h2
    have h2 : q.doing i = .done (.val v) := h2
    refine ⟨q.set i .nothing, ?_, rfl, by simp [Spec.Queue.Q.set, Pc.doing], fun j hj => by simp [Spec.Queue.Q.set, hj]⟩
    rw [Spec.Queue.replay_append, h1]
    simp [Spec.Queue.replay, Spec.Queue.after, h2]
  all_goals cases h

theorem rew_ok {B : Nat} {m : Mode} {s s' : St α} {i : Nat} {r : FreeList.Res} (hB : 0 < B) (k : Inv B m s) (hf : s.fl.pc i = .ret r)
    (h : rewStep B s i r (s.pc i) = some s') : Inv B m s' := by
  have hl := k.loc i
  have hm := k.role i
  cases hp : s.pc i <;> rw [hp] at h hl hm <;> simp only [rewStep] at h
  case w1 e =>
    cases h
    exact inv_pc k hf ⟨rfl, by rw [hp]; rfl⟩ (by rw [hp]; rfl) (by rw [hp]; rfl) hm (by rw [hp]; rfl) rfl (by rw [hp]; rfl)
  case w2 e h' =>
    have hl : h' = s.qhead := hl
    split at h
    · rename_i hz
      cases h
      refine inv_pop k hf ⟨rfl, by rw [hp]; rfl⟩ (by rw [hp]; rfl) (by rw [hp]; rfl) hm ⟨rfl, by rw [hp]; rfl, by rw [hp]; rfl⟩ ⟨hl, hz, ?_⟩ (by rw [hp]; rfl)
      intro u hu
      have hu' : gotF (upd s.fl.pc i .pop1 i) = some u := hu
      rw [upd_self] at hu'; cases hu'
    · rename_i hz
      cases h
      refine inv_pc k hf ⟨rfl, by rw [hp]; rfl⟩ (by rw [hp]; rfl) (by rw [hp]; rfl) hm (by rw [hp]; rfl) ?_ (by rw [hp]; rfl)
      show (s.blk s.qhead).head ≠ 0
      rw [← hl]; exact hz
  case w3 e h' =>
    obtain ⟨hq, hz, hgot⟩ := hl
    cases r <;> simp only [gotBlk] at h
    case empty =>
      cases h
      exact inv_new k hf ⟨rfl, by rw [hp]; rfl⟩ (by rw [hp]; rfl) (by rw [hp]; rfl) hm ⟨rfl, by rw [hp]; rfl, by rw [hp]; rfl⟩ (fun hgood => ⟨hq, hz, upd_self _ _ _⟩) (by rw [hp]; rfl)
    case popped n =>
      cases h
      exact inv_pc k hf ⟨rfl, by rw [hp]; rfl⟩ (by rw [hp]; rfl) (by rw [hp]; rfl) hm (by rw [hp]; rfl) ⟨hq, hz, hgot n (by rw [hf]; rfl)⟩ (by rw [hp]; rfl)
    all_goals cases h
  case w4 e h' n =>
    obtain ⟨hq, hz, hn⟩ := hl
    cases h
    have hne : h' ≠ n := fun e => by have := head_chain k; rw [← hq, e, hn] at this; cases this
    refine inv_own k hf hn ⟨rfl, rfl⟩ ⟨rfl, by rw [hp]; rfl⟩ (by rw [hp]; rfl) (by rw [hp]; rfl) hm ⟨rfl, by rw [hp]; rfl, by rw [hp]; rfl⟩ (fun _ => ⟨hq, ?_, hn, ?_⟩) (by rw [hp]; rfl)
    · simp only [St.setBlk]; rw [upd_other _ _ hne]; exact hz
    · simp only [St.setBlk]; rw [upd_self]
  case w5 e h' n =>
    obtain ⟨hq, hz, hn, hh⟩ := hl
    cases h
    have hne : h' ≠ n := fun e => by have := head_chain k; rw [← hq, e, hn] at this; cases this
    refine inv_own k hf hn ⟨rfl, rfl⟩ ⟨rfl, by rw [hp]; rfl⟩ (by rw [hp]; rfl) (by rw [hp]; rfl) hm ⟨rfl, by rw [hp]; rfl, by rw [hp]; rfl⟩ (fun _ => ⟨hq, ?_, hn, ?_, ?_⟩) (by rw [hp]; rfl)
    · simp only [St.setBlk]; rw [upd_other _ _ hne]; exact hz
    · simp only [St.setBlk]; rw [upd_self]; exact hh
    · simp only [St.setBlk]; rw [upd_self]
  case w6 e h' n =>
    obtain ⟨hq, hz, hn, hh, ht⟩ := hl
    cases h
    have hne : s.qhead ≠ n := fun e => by have := head_chain k; rw [e, hn] at this; cases this
    refine inv_own k hf hn ⟨rfl, rfl⟩ ⟨rfl, by rw [hp]; rfl⟩ (by rw [hp]; rfl) (by rw [hp]; rfl) hm ⟨rfl, by rw [hp]; rfl, by rw [hp]; rfl⟩ (fun _ => ⟨?_, hn, ?_, ?_, ?_⟩) (by rw [hp]; rfl)
    · simp only [St.setBlk]; rw [upd_other _ _ hne, ← hq]; exact hz
    · simp only [St.setBlk]; rw [upd_self]; exact hh
    · simp only [St.setBlk]; rw [upd_self]; exact ht
    · simp only [St.setBlk]; rw [upd_self, hq]
  case w7 e n => cases h; exact inv_front hB k hf hp
  case w8 e =>
    cases h
    exact inv_pc k hf ⟨rfl, by rw [hp]; rfl⟩ (by rw [hp]; rfl) (by rw [hp]; rfl) hm (by rw [hp]; rfl) ⟨rfl, hl⟩ (by rw [hp]; rfl)
  case w9 e h' =>
    obtain ⟨hq, hz⟩ := hl
    cases h
    exact inv_pc k hf ⟨rfl, by rw [hp]; rfl⟩ (by rw [hp]; rfl) (by rw [hp]; rfl) hm (by rw [hp]; rfl) ⟨hq, by omega⟩ (by rw [hp]; rfl)
  case w10 e h' hh => cases h; exact inv_rwrite k hf hp
  case w11 e h' hh => cases h; exact inv_ravail k hf hp
  case w12 e h' hh =>
    cases h
    have k1 := inv_put k hf hp
    generalize hs1 : ({ (s.setBlk h' { s.blk h' with head := hh }).rcd (.rewind i e) with rd := upd2 s.rd h' hh none, pc := upd s.pc i .eD } : St α) = s1 at k1
    have hp1 : s1.pc i = .eD := by rw [← hs1]; exact upd_self _ _ _
    have hf1 : s1.fl.pc i = .ret r := by rw [← hs1]; exact hf
    have k2 := inv_return (x := .yes) k1 hf1 (by rw [hp1]; rfl) (by rw [hp1]; rfl) (by rw [hp1]; rfl) (by rw [hp1]; rfl) (by rw [hp1]; exact .inl rfl)
    have e : St.ret { (s.setBlk h' { s.blk h' with head := hh }).rcd (.rewind i e) with rd := upd2 s.rd h' hh none } i .yes = s1.ret i .yes := by
      rw [← hs1]; simp only [St.ret, St.setPc, St.rcd, St.setBlk, upd_upd]
    rw [e]; exact k2
  all_goals cases h

theorem mgood_head {B : Nat} {s : St α} {h : Nat} (hg : MGood B s h) (hs : ¬ Spent B s h) : h = s.qhead := by
  rcases hg with h1 | h1
  · exact h1.symm
  · exact absurd h1 hs

theorem mpmc_ok {B : Nat} {m : Mode} {s s' : St α} {i : Nat} {ch : Bool} {r : FreeList.Res} (hB : 0 < B) (k : Inv B m s) (hf : s.fl.pc i = .ret r)
    (h : mpmcStep B s i ch r (s.pc i) = some s') : Inv B m s' := by
  have hl := k.loc i
  have hm := k.role i
  cases hp : s.pc i <;> rw [hp] at h hl hm <;> simp only [mpmcStep] at h
  case m1 =>
    cases h
    refine inv_ref k hf (by rw [k.held i, hp]; rfl) (alloc_of k (by rw [head_chain k]; simp)) ⟨rfl, by rw [hp]; rfl⟩ (by rw [hp]; rfl) (by rw [hp]; rfl) hm rfl ?_ (by rw [hp]; rfl)
    intro hx
    have hx' : upd s.fl.pc i (.ref1 s.qhead) i = .ret .ok := hx
    rw [upd_self] at hx'; cases hx'
  case m2 h' =>
    split at h
    · rename_i hr
      cases h
      subst hr
      exact inv_pc k hf ⟨rfl, by rw [hp]; rfl⟩ (by rw [hp]; rfl) (by rw [hp]; rfl) hm (by rw [hp]; rfl) ⟨hl hf, Nat.le_refl _⟩ (by rw [hp]; rfl)
    · rename_i hr
      cases h
      refine inv_pc k hf ⟨rfl, by rw [hp]; rfl⟩ (by rw [hp]; rfl) (by rw [hp]; rfl) hm ?_ trivial (by rw [hp]; rfl)
      rw [hp]; simp [heldOf, Pc.wants, Pc.refs, hr]
  case m3 h' hh =>
    obtain ⟨hg, hhd⟩ := hl
    split at h
    · rename_i h3
      split at h
      · rename_i h4
        cases h
        have hq : h' = s.qhead := mgood_head hg (fun hx => by have := hx.2.1; omega)
        have hst : s.stat h' = .chain := hq ▸ head_chain k
        have h1 := k.ht h' hst
        refine inv_release (t := h') (p := .mF) (lg := s.log ++ [.empty i]) k hf (by rw [k.held i, hp]; rfl) ⟨rfl, by rw [hp]; rfl⟩ (by rw [hp]; rfl) (by rw [hp]; rfl) hm ⟨rfl, rfl⟩ trivial
          (leg_ev (ev_empty (empty_cont k ?_ ?_) (by rw [hp]; exact .inr rfl)))
        · rw [← hq]; omega
        · rw [← hq]; exact nx_none k hst h4
      · rename_i h4
        cases h
        have : (s.blk h').tail = B ∧ (s.blk h').head = B := by
          rcases mgood_chain k hg with h1 | h1
          · have := k.ht h' h1; have := k.tl h' h1; omega
          · exact ⟨h1.2.1, h1.2.2.1⟩
        exact inv_pc k hf ⟨rfl, by rw [hp]; rfl⟩ (by rw [hp]; rfl) (by rw [hp]; rfl) hm (by rw [hp]; rfl) ⟨hg, this⟩ (by rw [hp]; rfl)
    · cases h
      exact inv_pc k hf ⟨rfl, by rw [hp]; rfl⟩ (by rw [hp]; rfl) (by rw [hp]; rfl) hm (by rw [hp]; rfl) ⟨hg, by omega⟩ (by rw [hp]; rfl)
  case m4 h' =>
    obtain ⟨hg, ht, hhd⟩ := hl
    split at h
    · rename_i hx
      cases h
      have hq : h' = s.qhead := mgood_head hg (fun hs => hs.2.2.2.1 hx)
      refine inv_release (t := h') (p := .mF) (lg := s.log ++ [.empty i]) k hf (by rw [k.held i, hp]; rfl) ⟨rfl, by rw [hp]; rfl⟩ (by rw [hp]; rfl) (by rw [hp]; rfl) hm ⟨rfl, rfl⟩ trivial
        (leg_ev (ev_empty (empty_cont k ?_ ?_) (by rw [hp]; exact .inr rfl)))
      · rw [← hq]; omega
      · rw [← hq]; exact hx
    · rename_i hx
      cases h
      exact inv_pc k hf ⟨rfl, by rw [hp]; rfl⟩ (by rw [hp]; rfl) (by rw [hp]; rfl) hm (by rw [hp]; rfl) ⟨hg, ht, hhd, hx⟩ (by rw [hp]; rfl)
  case m5 h' n =>
    obtain ⟨hg, ht, hhd, hx⟩ := hl
    split at h
    · rename_i hc
      cases h
      simp only [Bool.and_eq_true, beq_iff_eq] at hc
      exact inv_retire hB k hf hc.2.symm ht hhd hx (.inr hm) ⟨rfl, by rw [hp]; rfl⟩ (by rw [hp]; rfl) (by rw [hp]; rfl) hm ⟨rfl, by rw [hp]; rfl, by rw [hp]; rfl⟩ (fun _ => trivial) (by rw [hp]; rfl)
    · cases h
      exact inv_rel k hf (by rw [hp]; rfl) ⟨rfl, by rw [hp]; rfl⟩ (by rw [hp]; rfl) (by rw [hp]; rfl) hm ⟨rfl, rfl⟩ (fun _ => trivial) (by rw [hp]; rfl)
  case m5p h' =>
    cases h
    exact inv_rel k hf (by rw [hp]; rfl) ⟨rfl, by rw [hp]; rfl⟩ (by rw [hp]; rfl) (by rw [hp]; rfl) hm ⟨rfl, rfl⟩ (fun _ => trivial) (by rw [hp]; rfl)
  case m6 h' hh =>
    obtain ⟨hg, hlt⟩ := hl
    split at h
    · rename_i hc
      cases h
      simp only [Bool.and_eq_true, beq_iff_eq] at hc
      have hq : h' = s.qhead := mgood_head hg (fun hs => by have := hs.2.1; have := hs.2.2.1; omega)
      exact inv_take k hf hq hc.2 hlt (.inr hm) (by rw [hp]; exact .inr rfl) rfl ⟨by rw [hp]; rfl, rfl⟩ ⟨by rw [hp]; rfl, rfl⟩ ⟨rfl, by rw [hp]; rfl⟩ hm (by rw [hp]; rfl)
        (fun s' hs' => .inl hs')
    · cases h
      exact inv_rel k hf (by rw [hp]; rfl) ⟨rfl, by rw [hp]; rfl⟩ (by rw [hp]; rfl) (by rw [hp]; rfl) hm ⟨rfl, rfl⟩ (fun _ => trivial) (by rw [hp]; rfl)
  case m7 h' hh =>
    cases h
    split
    · rename_i ha
      exact inv_pc k hf ⟨rfl, by rw [hp]; rfl⟩ (by rw [hp]; rfl) (by rw [hp]; rfl) hm (by rw [hp]; rfl) ⟨hl, ha⟩ (by rw [hp]; rfl)
    · exact inv_pc k hf ⟨rfl, by rw [hp]; rfl⟩ (by rw [hp]) (by rw [hp]) hm (by rw [hp]) hl (by rw [hp])
  case m8 h' hh =>
    cases h
    refine inv_pc k hf ⟨rfl, by rw [hp]; rfl⟩ (by rw [hp]; rfl) (by rw [hp]; rfl) hm (by rw [hp]; rfl) hl ?_
    rw [hp]
    show Spec.Queue.Doing.done (.val ((s.blk h').elem hh)) = .done (.val (s.slot h' hh))
    rw [read_val k (i := i) (by rw [hp]; rfl) hl.2]
  case m9 h' hh v =>
    cases h
    refine inv_untake (lg := s.log) (p := .m10 h' v) k hf rfl hl.2 ⟨by rw [hp]; rfl, rfl⟩ ⟨by rw [hp]; rfl, rfl⟩ ⟨rfl, by rw [hp]; rfl⟩ hm (by rw [hp]; rfl)
      (fun _ => trivial) ?_
    intro q h1 h2
    rw [hp] at h2
    exact ⟨q, h1, rfl, h2, fun _ _ => rfl⟩
  case m10 h' v =>
    cases h
    exact inv_rel k hf (by rw [hp]; rfl) ⟨rfl, by rw [hp]; rfl⟩ (by rw [hp]; rfl) (by rw [hp]; rfl) hm ⟨rfl, rfl⟩ (fun _ => trivial) (by rw [hp]; rfl)
  case mR =>
    cases h
    exact inv_pc k hf ⟨rfl, by rw [hp]; rfl⟩ (by rw [hp]; rfl) (by rw [hp]; rfl) hm (by rw [hp]; rfl) trivial (by rw [hp]; rfl)
  case mF =>
    cases h
    exact inv_return k hf (by rw [hp]; rfl) (by rw [hp]; rfl) (by rw [hp]; rfl) (by rw [hp]; rfl) (by rw [hp]; exact .inl rfl)
  case mD v =>
    cases h
    exact inv_return k hf (by rw [hp]; rfl) (by rw [hp]; rfl) (by rw [hp]; rfl) (by rw [hp]; rfl) (by rw [hp]; exact .inl rfl)
  all_goals cases h

theorem add_ok {B : Nat} {m : Mode} {s s' : St α} {i : Nat} {r : FreeList.Res} (k : Inv B m s) (hf : s.fl.pc i = .ret r)
    (h : addStep s i (s.pc i) = some s') : Inv B m s' := by
  cases hp : s.pc i <;> rw [hp] at h <;> simp only [addStep] at h
  case a1 n =>
    cases h
    have k1 : Inv B m (((s.call i .new).setStat s.fl.alloc (.priv i)).setPc i (.a1 n)) :=
      inv_new k hf ⟨rfl, by rw [hp]; rfl⟩ (by rw [hp]) (by rw [hp]) trivial ⟨rfl, by rw [hp]; rfl, by rw [hp]⟩ (fun _ => trivial) (by rw [hp])
    generalize hs1 : ((s.call i .new).setStat s.fl.alloc (.priv i)).setPc i (.a1 n) = s1 at k1
    have hp1 : s1.pc i = .a1 n := by rw [← hs1]; exact upd_self _ _ _
    have hf1 : s1.fl.pc i = .ret (.popped s.fl.alloc) := by rw [← hs1]; exact upd_self _ _ _
    have k2 := inv_push (n := s.fl.alloc) (p := .a2) k1 hf1 (by rw [← hs1]; exact upd_self _ _ _) ⟨rfl, by rw [hp1]; rfl⟩ (by rw [hp1]; rfl) (by rw [hp1]; rfl) trivial
      ⟨rfl, by rw [hp1]; rfl, by rw [hp1]; rfl⟩ (fun _ => trivial) (by rw [hp1]; rfl)
    have e : ((s.call i .new).call i (.push s.fl.alloc)).setPc i .a2 = ((s1.setStat s.fl.alloc .free).call i (.push s.fl.alloc)).setPc i .a2 := by
      rw [← hs1]
      have : upd s.stat s.fl.alloc .free = s.stat := by
        funext u; rw [upd_apply]; split
        · rename_i e; rw [e]; exact (k.un _ (Nat.le_refl _)).1.symm
        · rfl
      simp only [St.setPc, St.setStat, St.call, upd_upd, this]
    rw [e]; exact k2
  case a2 =>
    cases h
    exact inv_return k hf (by rw [hp]; rfl) (by rw [hp]; rfl) (by rw [hp]; rfl) (by rw [hp]; rfl) (by rw [hp]; exact .inr ⟨rfl, rfl⟩)
  all_goals cases h

theorem local_ok {B : Nat} {m : Mode} {s s' : St α} {i : Nat} {ch : Bool} {r : FreeList.Res} (hB : 0 < B) (k : Inv B m s) (hf : s.fl.pc i = .ret r)
    (h : localStep B s i ch r = some s') : Inv B m s' := by
  simp only [localStep, Option.or_eq_some_iff] at h
  rcases h with ((h | ⟨_, h⟩) | ⟨_, h⟩) | ⟨_, h | ⟨_, h⟩⟩
  · exact enq_ok k hf h
  · exact deq_ok hB k hf h
  · exact rew_ok hB k hf h
  · exact mpmc_ok hB k hf h
  · exact add_ok k hf h

end Queue
end Salticidae
