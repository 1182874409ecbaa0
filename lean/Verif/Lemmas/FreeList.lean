import Verif.Model.FreeList
/-!
The invariant of the free list.
-/
namespace Salticidae
namespace FreeList

theorem upd_apply {α : Type} (f : Nat → α) (i j : Nat) (x : α) : upd f i x j = if j = i then x else f j := rfl
@[simp] theorem upd_self {α : Type} (f : Nat → α) (i : Nat) (x : α) : upd f i x i = x := by simp [upd]
theorem upd_other {α : Type} (f : Nat → α) {i j : Nat} (x : α) (h : j ≠ i) : upd f i x j = f j := by simp [upd, h]

/-- The user's or the list's reference. -/
def Phase.base : Phase → Nat
  | .used => 1
  | .leaving _ => 1
  | .pending => 0
  | .putting _ => 0
  | .entering _ => 0
  | .listed => 1

/-- References an operation holds. -/
def Pc.holds : Pc → Nat → Nat
  | .rel v false _, u => if u = v then 1 else 0
  | .pop4 v, u => if u = v then 1 else 0
  | .pop5 v _, u => if u = v then 1 else 0
  | _, _ => 0

/-- The node a thread is pushing. -/
def Pc.leaves : Pc → Option Nat
  | .push u => some u
  | .rel u true _ => some u
  | _ => none

/-- The node a thread is putting in the list. -/
def Pc.puts : Pc → Option Nat
  | .put1 u _ => some u
  | .put2 u _ _ => some u
  | .put3 u _ _ => some u
  | _ => none

def Pc.enters : Pc → Option Nat
  | .put4 u _ => some u
  | _ => none

/-- The node a thread has a pointer to. -/
def Pc.ptr : Pc → Option Nat
  | .ref1 u => some u
  | .ref2 u _ => some u
  | .push u => some u
  | .rel u _ _ => some u
  | .put1 u _ => some u
  | .put2 u _ _ => some u
  | .put3 u _ _ => some u
  | .put4 u _ => some u
  | .pop2 u => some u
  | .pop3 u _ => some u
  | .pop4 u => some u
  | .pop5 u _ => some u
  | .ret (.popped u) => some u
  | _ => none

/-- What a thread knows about the node's next pointer. -/
def Pc.knows : Pc → Nat → Option Nat → Prop
  | .put3 v t _, u, x => v = u → x = t
  | .pop5 v t, u, x => v = u → x = t
  | _, _, _ => True

def K.sane (u : Nat) : K → Prop
  | .got v => v = u
  | _ => True

def Pc.sane : Pc → Prop
  | .ref2 _ n => n ≠ 0
  | .pop3 _ n => n ≠ 0
  | .rel u _ k => k.sane u
  | .put1 u k => k.sane u
  | .put2 u _ k => k.sane u
  | .put3 u _ k => k.sane u
  | .put4 u k => k.sane u
  | _ => True

/-- The linked list. -/
def Chain (node : Nat → Node) : Option Nat → List Nat → Prop
  | t, [] => t = none
  | t, u :: l => t = some u ∧ Chain node (node u).next l

theorem chain_upd {node : Nat → Node} {u : Nat} {x : Node} : ∀ {l : List Nat} {t : Option Nat}, u ∉ l → Chain node t l →
    Chain (upd node u x) t l
  | [], _, _, h => h
  | v :: l, t, hu, h => by
    simp only [List.mem_cons, not_or] at hu
    refine ⟨h.1, ?_⟩
    rw [upd_other _ _ (Ne.symm hu.1)]
    exact chain_upd hu.2 h.2

/-- Only the count or the mark changes. -/
theorem chain_same {node : Nat → Node} {u : Nat} {x : Node} (hx : x.next = (node u).next) : ∀ {l : List Nat} {t : Option Nat},
    Chain node t l → Chain (upd node u x) t l
  | [], _, h => h
  | v :: l, t, h => by
    refine ⟨h.1, ?_⟩
    by_cases e : v = u
    · subst e; rw [upd_self, hx]; exact chain_same hx h.2
    · rw [upd_other _ _ e]; exact chain_same hx h.2

structure Inv (s : St) : Prop where
  cnt : ∀ u, (s.node u).refcnt = (s.phase u).base + (s.holders u).length
  hold : ∀ i u, (s.holders u).count i = (s.held i).count u + (s.pc i).holds u
  pend : ∀ u, s.phase u = .pending → s.holders u ≠ []
  zero : ∀ u i, s.phase u = .putting i ∨ s.phase u = .entering i → s.holders u = []
  lv : ∀ u i, s.phase u = .leaving i ↔ (s.pc i).leaves = some u
  pt : ∀ u i, s.phase u = .putting i ↔ (s.pc i).puts = some u
  en : ∀ u i, s.phase u = .entering i ↔ (s.pc i).enters = some u
  know : ∀ i u, (s.pc i).knows u (s.node u).next
  chain : Chain s.node s.top s.list
  nodup : s.list.Nodup
  mem : ∀ u, u ∈ s.list ↔ s.phase u = .listed ∨ ∃ i, s.phase u = .entering i
  fresh : ∀ u, s.alloc ≤ u → s.node u = ⟨none, 1, false⟩ ∧ s.phase u = .used
  ptr : ∀ i u, (s.pc i).ptr = some u → u < s.alloc
  sane : ∀ i, (s.pc i).sane

theorem inv_init : Inv init := by
  refine ⟨?_, ?_, ?_, ?_, ?_, ?_, ?_, ?_, ?_, ?_, ?_, ?_, ?_, ?_⟩ <;> simp [init, Phase.base, Pc.holds, Pc.leaves, Pc.puts, Pc.enters, Pc.knows, Chain, Pc.ptr, Pc.sane]

theorem kpc_holds (c : K) (u : Nat) : c.pc.holds u = 0 := by cases c <;> rfl
theorem kpc_leaves (c : K) : c.pc.leaves = none := by cases c <;> rfl
theorem kpc_puts (c : K) : c.pc.puts = none := by cases c <;> rfl
theorem kpc_enters (c : K) : c.pc.enters = none := by cases c <;> rfl
theorem kpc_knows (c : K) (u : Nat) (x : Option Nat) : c.pc.knows u x := by cases c <;> trivial
theorem kpc_sane (c : K) : c.pc.sane := by cases c <;> trivial
theorem kpc_ptr (c : K) (u v : Nat) (h : c.sane u) (hp : c.pc.ptr = some v) : v = u := by
  cases c with
  | got w => cases hp; exact h
  | _ => cases hp

macro "fl_all" k:term : tactic => `(tactic| (
  have hcnt := ($k).cnt; have hhold := ($k).hold; have hpend := ($k).pend; have hzero := ($k).zero
  have hlv := ($k).lv; have hpt := ($k).pt; have hen := ($k).en; have hknow := ($k).know
  have hmem := ($k).mem; have hfresh := ($k).fresh; have hptr := ($k).ptr; have hsane := ($k).sane))

macro "fl_grind" : tactic => `(tactic| grind (splits := 20) [upd_apply, Pc.holds, Pc.leaves, Pc.puts, Pc.enters, Pc.knows, Pc.ptr, Pc.sane, K.sane, Phase.base,
  kpc_holds, kpc_leaves, kpc_puts, kpc_enters, kpc_knows, kpc_sane, kpc_ptr, List.length_erase])

theorem inv_call {s : St} {i : Nat} {op : Op} (k : Inv s) (hi : s.idle i = true) (he : op.exists s = true)
    (hb : (call s i op).bad = false) : Inv (call s i op) := by
  have hp : ∃ r, s.pc i = .ret r := by
    unfold St.idle at hi
    split at hi
    · exact ⟨_, by assumption⟩
    · cases hi
  obtain ⟨r, hp⟩ := hp
  cases op with
  | new =>
    fl_all k
    refine ⟨k.cnt, ?_, k.pend, k.zero, ?_, ?_, ?_, ?_, k.chain, k.nodup, k.mem, ?_, ?_, ?_⟩
    all_goals simp only [call]
    all_goals fl_grind
  | ref u =>
    fl_all k
    simp only [Op.exists, decide_eq_true_eq] at he
    refine ⟨k.cnt, ?_, k.pend, k.zero, ?_, ?_, ?_, ?_, k.chain, k.nodup, k.mem, k.fresh, ?_, ?_⟩
    all_goals simp only [call, St.setPc]
    all_goals fl_grind
  | push u =>
    fl_all k
    have hc : s.phase u = .used ∧ u < s.alloc := by
      simp only [call, St.setPc, St.setPhase] at hb
      split at hb
      · assumption
      · cases hb
    refine ⟨?_, ?_, ?_, ?_, ?_, ?_, ?_, ?_, ?_, ?_, ?_, ?_, ?_, ?_⟩
    all_goals simp only [call, St.setPc, St.setPhase, if_pos hc]
    case refine_9 => exact k.chain
    case refine_10 => exact k.nodup
    all_goals fl_grind
  | release u =>
    fl_all k
    have hc : u ∈ s.held i := by
      simp only [call] at hb
      split at hb
      · assumption
      · cases hb
    have hc' : 0 < (s.held i).count u := List.count_pos_iff.2 hc
    have hl : 0 < (s.holders u).length := by
      have h1 := k.hold i u
      have := List.count_le_length (a := i) (l := s.holders u)
      omega
    refine ⟨?_, ?_, ?_, ?_, ?_, ?_, ?_, ?_, ?_, ?_, ?_, ?_, ?_, ?_⟩
    all_goals simp only [call, if_pos hc]
    case refine_9 => exact k.chain
    case refine_10 => exact k.nodup
    all_goals fl_grind
  | pop =>
    fl_all k
    refine ⟨k.cnt, ?_, k.pend, k.zero, ?_, ?_, ?_, ?_, k.chain, k.nodup, k.mem, k.fresh, ?_, ?_⟩
    all_goals simp only [call, St.setPc]
    all_goals fl_grind

/-- A thread's operation goes on without changing anything. -/
theorem inv_setPc {s : St} {i : Nat} {p : Pc} (k : Inv s) (h1 : ∀ u, p.holds u = (s.pc i).holds u) (h2 : p.leaves = (s.pc i).leaves)
    (h3 : p.puts = (s.pc i).puts) (h4 : p.enters = (s.pc i).enters) (h5 : ∀ u, p.knows u (s.node u).next)
    (h6 : ∀ u, p.ptr = some u → u < s.alloc) (h7 : p.sane) : Inv (s.setPc i p) := by
  fl_all k
  refine ⟨k.cnt, ?_, k.pend, k.zero, ?_, ?_, ?_, ?_, k.chain, k.nodup, k.mem, k.fresh, ?_, ?_⟩
  all_goals simp only [St.setPc]
  all_goals grind [upd_apply]

theorem inv_setFreed {s : St} {u : Nat} {b : Bool} (k : Inv s) (h : u < s.alloc) : Inv (s.setFreed u b) := by
  fl_all k
  refine ⟨?_, k.hold, k.pend, k.zero, k.lv, k.pt, k.en, ?_, (by refine chain_same ?_ k.chain; rfl), k.nodup, k.mem, ?_, k.ptr, k.sane⟩
  all_goals simp only [St.setFreed]
  all_goals grind [upd_apply]

theorem knows_true {p : Pc} (h1 : ∀ u t k, p ≠ .put3 u t k) (h2 : ∀ u t, p ≠ .pop5 u t) (u : Nat) (x : Option Nat) : p.knows u x := by
  unfold Pc.knows
  split
  · exact absurd rfl (h1 _ _ _)
  · exact absurd rfl (h2 _ _)
  · trivial

macro "fl_pc" hp:ident k:ident : tactic => `(tactic| (
  have hptr := ($k).ptr; have hknow := ($k).know; have hsane := ($k).sane
  refine inv_setPc $k ?_ ?_ ?_ ?_ ?_ ?_ ?_
  all_goals try rw [$hp:ident]
  all_goals grind [Pc.holds, Pc.leaves, Pc.puts, Pc.enters, Pc.knows, Pc.ptr, Pc.sane, K.sane, K.pc]))

/-- Nobody else knows the next pointer of a node that is being put in the list. -/
theorem unknown {s : St} {u i j : Nat} (k : Inv s) (h : s.phase u = .putting i) (hj : j ≠ i) (x : Option Nat) : (s.pc j).knows u x := by
  have hz := k.zero u i (.inl h)
  cases hp : s.pc j with
  | put3 v t c =>
    intro e
    subst e
    have := (k.pt v j).2 (by rw [hp]; rfl)
    rw [h] at this
    cases this
    exact absurd rfl hj
  | pop5 v t =>
    intro e
    subst e
    have := k.hold j v
    rw [hz, hp] at this
    simp [Pc.holds] at this
  | _ => trivial

theorem top_alloc {s : St} {u : Nat} (k : Inv s) (h : s.top = some u) : u < s.alloc ∧ u ∈ s.list := by
  have hc := k.chain
  cases hl : s.list with
  | nil => rw [hl] at hc; rw [hc] at h; cases h
  | cons v l =>
    rw [hl] at hc
    have := hc.1
    rw [h] at this
    cases this
    refine ⟨?_, by simp⟩
    have hm := (k.mem u).1 (by rw [hl]; simp)
    have := k.fresh u
    by_cases hu : u < s.alloc
    · exact hu
    · have := (this (by omega)).2
      rw [this] at hm
      simp at hm

set_option maxHeartbeats 1600000 in
theorem inv_release {s : St} {i u : Nat} {b : Bool} {c : K} (k : Inv s) (hp : s.pc i = .rel u b c) : Inv (release s i u b c) := by
  have hal : u < s.alloc := k.ptr i u (by rw [hp]; rfl)
  have hcs : c.sane u := by have := k.sane i; rw [hp] at this; exact this
  cases b with
  | true =>
    have hph := (k.lv u i).2 (by rw [hp]; rfl)
    have hcn := k.cnt u
    rw [hph] at hcn
    fl_all k
    unfold release
    simp only [if_true]
    split
    · rename_i hn
      have hho : s.holders u ≠ [] := by intro e; rw [e] at hcn; simp [Phase.base] at hcn; exact hn hcn
      refine ⟨?_, ?_, ?_, ?_, ?_, ?_, ?_, ?_, ?_, ?_, ?_, ?_, ?_, ?_⟩
      all_goals simp only [St.setPhase, St.setPc, St.setCnt]
      case refine_9 => refine chain_same ?_ k.chain; rfl
      case refine_10 => exact k.nodup
      all_goals fl_grind
    · rename_i hn
      have hho : s.holders u = [] := by
        apply List.eq_nil_of_length_eq_zero
        simp only [Phase.base, Decidable.not_not] at hcn hn
        omega
      refine ⟨?_, ?_, ?_, ?_, ?_, ?_, ?_, ?_, ?_, ?_, ?_, ?_, ?_, ?_⟩
      all_goals simp only [St.setPhase, St.setPc, St.setCnt]
      case refine_9 => refine chain_same ?_ k.chain; rfl
      case refine_10 => exact k.nodup
      all_goals fl_grind
  | false =>
    have hcn := k.cnt u
    have hho := k.hold i u
    rw [hp] at hho
    simp only [Pc.holds, if_true] at hho
    have him : i ∈ s.holders u := List.count_pos_iff.1 (by omega)
    have hlen := List.length_erase_of_mem him
    have hlp := List.length_pos_of_mem him
    fl_all k
    unfold release
    simp only [Bool.false_eq_true, if_false]
    split
    · rename_i hn
      refine ⟨?_, ?_, ?_, ?_, ?_, ?_, ?_, ?_, ?_, ?_, ?_, ?_, ?_, ?_⟩
      all_goals simp only [St.delHolder, St.setPc, St.setCnt]
      case refine_9 => refine chain_same ?_ k.chain; rfl
      case refine_10 => exact k.nodup
      all_goals fl_grind
    · rename_i hn
      have hph : s.phase u = .pending := by
        cases hq : s.phase u <;> rw [hq] at hcn <;> simp only [Phase.base, Decidable.not_not] at hcn hn <;> try omega
        · have := k.zero u _ (.inl hq); rw [this] at him; cases him
        · have := k.zero u _ (.inr hq); rw [this] at him; cases him
      have he : (s.holders u).erase i = [] := by
        apply List.eq_nil_of_length_eq_zero
        rw [hph] at hcn
        simp only [Phase.base, Decidable.not_not] at hcn hn
        omega
      refine ⟨?_, ?_, ?_, ?_, ?_, ?_, ?_, ?_, ?_, ?_, ?_, ?_, ?_, ?_⟩
      all_goals simp only [St.delHolder, St.setPhase, St.setPc, St.setCnt]
      case refine_9 => refine chain_same ?_ k.chain; rfl
      case refine_10 => exact k.nodup
      all_goals fl_grind

set_option maxHeartbeats 1600000 in
theorem inv_micro {s s' : St} {i : Nat} {ch : Bool} (k : Inv s) (h : micro s i ch = some s') : Inv s' := by
  have hnd := k.nodup
  have hch := k.chain
  unfold micro at h
  split at h
  all_goals (try cases h)
  case h_2 u hp =>
    split
    · fl_pc hp k
    · fl_pc hp k
  case h_3 u n hp =>
    split
    · rename_i hc
      simp only [Bool.and_eq_true, beq_iff_eq] at hc
      have hal : u < s.alloc := k.ptr i u (by rw [hp]; rfl)
      fl_all k
      refine ⟨?_, ?_, ?_, ?_, ?_, ?_, ?_, ?_, ?_, ?_, ?_, ?_, ?_, ?_⟩
      all_goals simp only [St.setCnt, St.addHolder, St.setPc]
      case refine_9 => refine chain_same ?_ k.chain; rfl
      case refine_10 => exact k.nodup
      all_goals fl_grind
    · fl_pc hp k
  case h_4 u hp =>
    have h1 := inv_setFreed (u := u) (b := true) k (k.ptr i u (by rw [hp]; rfl))
    have hp' : (s.setFreed u true).pc i = .push u := hp
    fl_pc hp' h1
  case h_5 u b c hp => exact inv_release k hp
  case h_6 u c hp => fl_pc hp k
  case h_7 u t c hp =>
    have hph := (k.pt u i).2 (by rw [hp]; rfl)
    have hu : u ∉ s.list := by have := k.mem u; rw [hph] at this; simpa using this
    have hun := fun j hj x => unknown (j := j) k hph hj x
    have hal : u < s.alloc := k.ptr i u (by rw [hp]; rfl)
    fl_all k
    refine ⟨?_, ?_, ?_, ?_, ?_, ?_, ?_, ?_, ?_, ?_, ?_, ?_, ?_, ?_⟩
    all_goals simp only [St.setNext, St.setPc]
    case refine_9 => exact chain_upd hu k.chain
    case refine_10 => exact k.nodup
    all_goals fl_grind
  case h_8 u t c hp =>
    split
    · rename_i hc
      simp only [Bool.and_eq_true, beq_iff_eq] at hc
      have hph := (k.pt u i).2 (by rw [hp]; rfl)
      have hu : u ∉ s.list := by have := k.mem u; rw [hph] at this; simpa using this
      have hn : (s.node u).next = t := by have := k.know i u; rw [hp] at this; exact this rfl
      fl_all k
      refine ⟨?_, ?_, ?_, ?_, ?_, ?_, ?_, ?_, ?_, ?_, ?_, ?_, ?_, ?_⟩
      all_goals simp only [St.setPhase, St.setPc]
      case refine_9 => exact ⟨rfl, by rw [hn, ← hc.2]; exact k.chain⟩
      case refine_10 => exact List.nodup_cons.2 ⟨hu, k.nodup⟩
      all_goals fl_grind
    · fl_pc hp k
  case h_9 u c hp =>
    have hph := (k.en u i).2 (by rw [hp]; rfl)
    have hz := k.zero u i (.inr hph)
    fl_all k
    refine ⟨?_, ?_, ?_, ?_, ?_, ?_, ?_, ?_, ?_, ?_, ?_, ?_, ?_, ?_⟩
    all_goals simp only [St.setPhase, St.setPc, St.setCnt]
    case refine_9 => refine chain_same ?_ k.chain; rfl
    case refine_10 => exact k.nodup
    all_goals fl_grind
  case h_10 hp =>
    split
    · fl_pc hp k
    · rename_i u hu
      have : u < s.alloc := (top_alloc k hu).1
      fl_pc hp k
  case h_11 u hp => 
    split
    · fl_pc hp k
    · fl_pc hp k
  case h_12 u n hp =>
    split
    · rename_i hc
      simp only [Bool.and_eq_true, beq_iff_eq] at hc
      have hal : u < s.alloc := k.ptr i u (by rw [hp]; rfl)
      fl_all k
      refine ⟨?_, ?_, ?_, ?_, ?_, ?_, ?_, ?_, ?_, ?_, ?_, ?_, ?_, ?_⟩
      all_goals simp only [St.setCnt, St.addHolder, St.setPc]
      case refine_9 => refine chain_same ?_ k.chain; rfl
      case refine_10 => exact k.nodup
      all_goals fl_grind
    · fl_pc hp k
  case h_13 u hp => fl_pc hp k
  case h_14 u nv hp =>
    split
    · rename_i hc
      simp only [Bool.and_eq_true, beq_iff_eq] at hc
      have hal : u < s.alloc := k.ptr i u (by rw [hp]; rfl)
      have hn : (s.node u).next = nv := by have := k.know i u; rw [hp] at this; exact this rfl
      have hm := (top_alloc k hc.2).2
      have hho : s.holders u ≠ [] := by
        intro e
        have := k.hold i u
        rw [e, hp] at this
        simp [Pc.holds] at this
      have hph : s.phase u = .listed := by
        rcases (k.mem u).1 hm with h | ⟨j, h⟩
        · exact h
        · exact absurd (k.zero u j (.inr h)) hho
      obtain ⟨l, hl⟩ : ∃ l, s.list = u :: l := by
        have hc' := k.chain
        cases hl : s.list with
        | nil => rw [hl] at hc'; rw [hc'] at hc; cases hc.2
        | cons v l =>
          rw [hl] at hc'
          have := hc'.1
          rw [hc.2] at this
          cases this
          exact ⟨l, rfl⟩
      rw [hl] at hnd hch
      have hul : u ∉ l := (List.nodup_cons.1 hnd).1
      fl_all k
      refine ⟨?_, ?_, ?_, ?_, ?_, ?_, ?_, ?_, ?_, ?_, ?_, ?_, ?_, ?_⟩
      all_goals simp only [St.setPhase, St.setPc, hl, List.tail_cons]
      case refine_9 => rw [← hn]; exact hch.2
      case refine_10 => exact (List.nodup_cons.1 hnd).2
      all_goals fl_grind
    · fl_pc hp k

theorem bad_call {s : St} {i : Nat} {op : Op} (h : (call s i op).bad = false) : s.bad = false := by
  cases op <;> simp only [call, St.setPc, St.setPhase] at h <;> try exact h
  all_goals split at h <;> first | exact h | cases h

theorem bad_micro {s s' : St} {i : Nat} {ch : Bool} (h : micro s i ch = some s') : s'.bad = s.bad := by
  unfold micro at h
  split at h
  all_goals (try cases h)
  all_goals (repeat' split)
  all_goals try rfl
  unfold release
  simp only
  split <;> split <;> rfl

theorem inv_step {s s' : St} {a : Act} (k : s.bad = false → Inv s) (h : step s a = some s') (hb : s'.bad = false) : Inv s' := by
  cases a with
  | call i op =>
    simp only [step] at h
    split at h
    · rename_i hc
      simp only [Bool.and_eq_true] at hc
      cases h
      exact inv_call (k (bad_call hb)) hc.1 hc.2 hb
    · cases h
  | micro i ch => exact inv_micro (k (by rw [← bad_micro h]; exact hb)) h
  | clear u =>
    simp only [step] at h
    split at h
    · rename_i hu
      cases h
      exact inv_setFreed (k hb) hu
    · cases h

theorem bad_step {s s' : St} {a : Act} (h : step s a = some s') (hb : s'.bad = false) : s.bad = false := by
  cases a with
  | call i op =>
    simp only [step] at h
    split at h
    · cases h; exact bad_call hb
    · cases h
  | micro i ch => rw [← bad_micro h]; exact hb
  | clear u =>
    simp only [step] at h
    split at h
    · cases h; exact hb
    · cases h

theorem bad_run : ∀ {l : List Act} {s s' : St}, run s l = some s' → s'.bad = false → s.bad = false
  | [], _, _, h, hb => by cases h; exact hb
  | a :: l, s, s', h, hb => by
    simp only [run] at h
    cases hx : step s a with
    | none => rw [hx] at h; cases h
    | some u => rw [hx] at h; exact bad_step hx (bad_run h hb)

theorem inv_run : ∀ {l : List Act} {s s' : St}, (s.bad = false → Inv s) → run s l = some s' → s'.bad = false → Inv s'
  | [], _, _, k, h, hb => by cases h; exact k hb
  | a :: l, s, s', k, h, hb => by
    simp only [run] at h
    cases hx : step s a with
    | none => rw [hx] at h; cases h
    | some u => rw [hx] at h; exact inv_run (fun hb => inv_step k hx hb) h hb

end FreeList
end Salticidae
