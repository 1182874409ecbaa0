import Verif.Lemmas.QueueProg
import Verif.Model.QueueGone
/-!
The blocks of a queue in which no operation is running, and its destructor.
-/
namespace Salticidae
namespace Queue
open FreeList (upd upd_apply upd_self upd_other)

variable {α : Type}

/-- The block that a thread has taken and not yet put into the queue. -/
def mine (p : Pc α) (f : FreeList.Pc) : Option Nat :=
  match p with
  | .e7 _ _ _ | .w3 _ _ => gotF f
  | .e8 _ _ _ n | .e9 _ _ _ n | .e10 _ _ _ n | .e11 _ _ _ n | .w4 _ _ n | .w5 _ _ n | .w6 _ _ n | .w7 _ n => some n
  | _ => none

/-- A thread that has a block for itself is about to use it. -/
def PrivOk (s : St α) : Prop := ∀ u j, s.stat u = .priv j → mine (s.pc j) (s.fl.pc j) = some u

theorem priv_init : PrivOk (init α) := by
  intro u j h
  simp only [init] at h
  split at h <;> cases h

theorem local_priv [DecidableEq α] {B : Nat} {s s' : St α} {i : Nat} {ch : Bool} {r : FreeList.Res} (hr : s.fl.pc i = .ret r) (k : PrivOk s) (hm : ∀ u, mine (s.pc i) (s.fl.pc i) = some u → s.stat u = .priv i)
    (h : localStep B s i ch r = some s') : PrivOk s' := by
  intro u j hu
  by_cases hj : j = i
  · subst hj
    have k := k u j
    simp only [localStep] at h
    cases hp : s.pc j <;>
      simp only [hp, enqStep, deqStep, rewStep, mpmcStep, addStep, Option.none_or, Option.or_none, Option.some_or, gotBlk] at h
    all_goals (repeat' split at h)
    all_goals first
      | (cases h; done)
      | (cases h
         simp only [hp, hr] at k hm
         simp only [St.ret, St.setPc, St.rcd, St.setBlk, St.setStat, St.call, upd_apply, if_true] at hu ⊢
         first
           | exact k hu
           | (have := k hu; simp [mine, gotF] at this; done)
           | (have := k hu; simp [mine, gotF] at this ⊢; simp_all; done)
           | (simp only [mine, gotF] at k hm ⊢; grind))
  · rw [(local_pc h j hj).1, (local_pc h j hj).2]
    refine k u j ?_
    simp only [localStep] at h
    cases hp : s.pc i <;>
      simp only [hp, enqStep, deqStep, rewStep, mpmcStep, addStep, Option.none_or, Option.or_none, Option.some_or, gotBlk] at h
    all_goals (repeat' split at h)
    all_goals first
      | (cases h; done)
      | (cases h
         simp only [St.ret, St.setPc, St.rcd, St.setBlk, St.setStat, St.call, upd_apply] at hu
         first
           | exact hu
           | (split at hu
              · cases hu; first | exact absurd rfl hj | done
              · exact hu))

theorem gotF_k (k : FreeList.K) : gotF k.pc = gotK k := by cases k <;> rfl

theorem micro_got {s s' : FreeList.St} {i u : Nat} {ch : Bool} (h : FreeList.micro s i ch = some s') (hg : gotF (s.pc i) = some u) : gotF (s'.pc i) = some u := by
  simp only [FreeList.micro] at h
  cases hp : s.pc i <;> rw [hp] at hg <;> simp only [hp] at h
  all_goals try (cases h; done)
  all_goals try (simp [gotF] at hg; done)
  all_goals (cases h)
  all_goals (try simp only [FreeList.release, FreeList.St.setPc, FreeList.St.setCnt, FreeList.St.addHolder, FreeList.St.setFreed, FreeList.St.setNext, FreeList.St.setPhase, FreeList.St.delHolder])
  all_goals (repeat' split)
  all_goals (simp only [upd_self, gotF_k]; exact hg)

theorem micro_used {s s' : FreeList.St} {i u : Nat} {ch : Bool} (h : FreeList.micro s i ch = some s') (h0 : s.phase u ≠ .used) (h1 : s'.phase u = .used) :
    (∃ nv, s.pc i = .pop5 u nv) ∧ s'.pc i = .rel u false (.got u) := by
  simp only [FreeList.micro] at h
  cases hp : s.pc i <;> simp only [hp] at h
  all_goals try (cases h; done)
  all_goals (cases h)
  all_goals (simp only [FreeList.release, FreeList.St.setPc, FreeList.St.setCnt, FreeList.St.addHolder, FreeList.St.setFreed, FreeList.St.setNext, FreeList.St.setPhase, FreeList.St.delHolder] at h1 ⊢)
  all_goals (repeat' split at h1)
  all_goals (simp only [upd_apply] at h1 ⊢)
  all_goals first
    | exact absurd h1 h0
    | (split at h1 <;> first | (cases h1; done) | exact absurd h1 h0 | (rename_i e; subst e; exact ⟨⟨_, rfl⟩, by simp_all⟩))
    | grind

theorem micro_priv {s : St α} {i : Nat} {ch : Bool} {fl : FreeList.St} (kp : Prog s) (k : PrivOk s) (h : FreeList.micro s.fl i ch = some fl) : PrivOk (afterMicro s i fl) := by
  intro u j hu
  simp only [afterMicro] at hu ⊢
  split at hu
  · rename_i hn
    cases hu
    obtain ⟨⟨nv, h1⟩, h2⟩ := micro_used h hn.1 hn.2
    have := kp.fit i
    rw [h1] at this
    rw [h2]
    cases hp : s.pc i <;> rw [hp] at this <;> first | rfl | (cases this; done)
  · have h1 := k u j hu
    by_cases hj : j = i
    · subst hj
      cases hp : s.pc j <;> rw [hp] at h1 <;> first | exact h1 | exact micro_got h h1
    · rw [micro_other h hj]; exact h1

variable [DecidableEq α]

theorem loc_mine {B : Nat} {m : Mode} {s : St α} {i u : Nat} (k : Inv B m s) (h : mine (s.pc i) (s.fl.pc i) = some u) : s.stat u = .priv i := by
  have hl := k.loc i
  cases hp : s.pc i <;> rw [hp] at h hl <;> simp only [mine] at h <;> first
    | (cases h; done)
    | (cases h; simp only [Loc] at hl; grind)
    | (simp only [Loc] at hl; grind)

theorem priv_step {B : Nat} {m : Mode} {s s' : St α} {a : Act α} (k : Inv B m s) (kp : Prog s) (kk : PrivOk s) (h : step B s a = some s') : PrivOk s' := by
  cases a with
  | start i c =>
    simp only [step] at h
    split at h
    · rename_i y hy
      cases h
      intro u j hu
      have h1 := kk u j hu
      have : j ≠ i := by rintro rfl; rw [hy] at h1; cases h1
      simpa only [St.setPc, St.rcd, upd_other _ _ this] using h1
    · cases h
  | go i ch =>
    simp only [step] at h
    split at h
    · rename_i r hr
      exact local_priv hr kk (fun u => loc_mine k) h
    · simp only [Option.map_eq_some_iff] at h
      obtain ⟨fl, h1, h2⟩ := h
      subst h2
      exact micro_priv kp kk h1

theorem priv_run {B : Nat} {m : Mode} (hB : 0 < B) : ∀ {acts : List (Act α)} {s s' : St α}, Inv B m s → IdleFl s → Prog s → PrivOk s → run B s acts = some s' →
    (∀ a ∈ acts, a.allowed m) → (∀ p ∈ trace B s acts, timelyAt p.1 p.2) → (m = .multi → ∀ p ∈ trace B s acts, freshAt p.1 p.2) → PrivOk s'
  | [], s, s', k, ki, kp, kk, h, _, _, _ => by cases h; exact kk
  | a :: as, s, s', k, ki, kp, kk, h, ha, hT, hF => by
    simp only [run, Option.bind_eq_some_iff] at h
    obtain ⟨s1, h1, h2⟩ := h
    simp only [trace, h1, List.mem_cons] at hT hF
    exact priv_run hB (inv_step hB k ki h1 (ha a (by simp)) (hT _ (.inl rfl)) (fun hm => hF hm _ (.inl rfl))) (idle_step ki h1) (prog_step k kp h1) (priv_step k kp kk h1) h2
      (fun x hx => ha x (by simp [hx])) (fun p hp => hT p (.inr hp)) (fun hm p hp => hF hm p (.inr hp))

end Queue

namespace QueueGone
open Queue
open FreeList (upd upd_apply upd_self upd_other)

/-- Where the destructor's pop can be. -/
def PopOk (fl : FreeList.St) : FreeList.Pc → Prop
  | .pop1 => True
  | .pop2 u => fl.top = some u
  | .pop3 u n => fl.top = some u ∧ n = (fl.node u).refcnt
  | .pop4 u => fl.top = some u
  | .pop5 u _ => fl.top = some u
  | .rel u false .again => fl.top = some u
  | .rel u false (.got v) => u = v
  | .ret .empty => fl.list = []
  | .ret (.popped _) => True
  | _ => False

/-- The block that pop has taken. -/
def got (i : Nat) (d : D) : Option Nat := if d.pc = .pop then gotF (d.fl.pc i) else none

/-- In the first loop. -/
structure J (i : Nat) (c : List Nat) (d : D) : Prop where
  fl : FreeList.Inv d.fl
  oth : ∀ j, j ≠ i → retF (d.fl.pc j) = true
  held : ∀ j, d.fl.held j = []
  pc : (d.pc = .call ∧ retF (d.fl.pc i) = true) ∨ (d.pc = .pop ∧ PopOk d.fl (d.fl.pc i))
  nd : d.gone.Nodup
  ph : ∀ u, d.fl.phase u = .used ∨ d.fl.phase u = .listed
  us : ∀ u, u < d.fl.alloc → (d.fl.phase u = .used ↔ u ∈ d.gone ∨ u ∈ c ∨ got i d = some u)
  ex : ∀ u, u ∈ d.gone ∨ u ∈ c → u < d.fl.alloc
  dj : ∀ u ∈ d.gone, u ∉ c
  gg : ∀ u, got i d = some u → u ∉ d.gone ∧ u ∉ c ∧ u < d.fl.alloc
  hd : c.head? = some d.head

/-- The rest of the queue's blocks. -/
def Path (next : Nat → Option Nat) : Option Nat → List Nat → Prop
  | p, [] => p = none
  | p, u :: l => p = some u ∧ Path next (next u) l

theorem path_of_linked {α : Type} {blk : Nat → Blk α} : ∀ {l : List Nat} {u : Nat}, Linked blk l → l.head? = some u → Path (fun v => (blk v).next) (some u) l
  | [], _, _, h => by cases h
  | [v], u, hl, h => by cases h; exact ⟨rfl, hl⟩
  | v :: w :: l, u, hl, h => by cases h; exact ⟨rfl, by show Path _ (blk v).next _; rw [hl.1]; exact path_of_linked hl.2 rfl⟩

/-- In the second one. -/
structure W (p : Option Nat) (l : List Nat) (d : D) : Prop where
  path : Path d.next p l
  nd : d.gone.Nodup
  ld : l.Nodup
  dj : ∀ u ∈ l, u ∉ d.gone
  al : ∀ u, u < d.fl.alloc ↔ u ∈ d.gone ∨ u ∈ l

/-- What is known of the destructor. -/
inductive K (i : Nat) (c : List Nat) (d : D) : Prop where
  | pops (h : J i c d)
  | walk (p : Option Nat) (l : List Nat) (hp : d.pc = .walk p) (h : W p l d)
  | ended (hp : d.pc = .ended) (nd : d.gone.Nodup) (al : ∀ u, u < d.fl.alloc ↔ u ∈ d.gone)

theorem k_not_ub {i : Nat} {c : List Nat} {d : D} (k : K i c d) : d.pc ≠ .ub := by
  cases k with
  | pops h => rcases h.pc with ⟨h, _⟩ | ⟨h, _⟩ <;> rw [h] <;> simp
  | walk p l hp _ => rw [hp]; simp
  | ended hp _ _ => rw [hp]; simp

/-- Steps that are left in the first loop, if every compare-exchange succeeds. -/
def popLeft (n : Nat) : FreeList.Pc → Nat
  | .pop1 => 10 * n + 8
  | .pop2 _ => 10 * n + 7
  | .pop3 _ _ => 10 * n + 6
  | .pop4 _ => 10 * n + 5
  | .pop5 _ _ => 10 * n + 4
  | .rel _ _ .again => 10 * n + 9
  | .rel _ _ _ => 10 * n + 13
  | .ret .empty => 10 * n + 7
  | _ => 10 * n + 12

def left (i : Nat) (d : D) : Nat := if d.pc = .call then 10 * d.fl.list.length + 9 else popLeft d.fl.list.length (d.fl.pc i)

theorem top_mem {fl : FreeList.St} {u : Nat} (k : FreeList.Inv fl) (h : fl.top = some u) : ∃ l, fl.list = u :: l ∧ (fl.node u).next = l.head? := by
  have := k.chain
  rw [h] at this
  cases hl : fl.list with
  | nil => rw [hl] at this; cases this
  | cons v l =>
    rw [hl] at this
    obtain ⟨h1, h2⟩ := this
    cases h1
    refine ⟨l, rfl, ?_⟩
    cases l with
    | nil => exact h2
    | cons w l => exact h2.1

theorem J.top {i : Nat} {c : List Nat} {d : D} {u : Nat} (k : J i c d) (h : d.fl.top = some u) : d.fl.phase u = .listed ∧ u < d.fl.alloc ∧ u ∉ d.gone ∧ u ∉ c := by
  obtain ⟨l, hl, _⟩ := top_mem k.fl h
  have hm := (k.fl.mem u).1 (by rw [hl]; simp)
  have hp : d.fl.phase u = .listed := by
    rcases k.ph u with h1 | h1
    · rw [h1] at hm; rcases hm with hm | ⟨j, hm⟩ <;> cases hm
    · exact h1
  have ha : u < d.fl.alloc := by
    apply Nat.lt_of_not_le
    intro hx
    rw [(k.fl.fresh u hx).2] at hp; cases hp
  have := k.us u ha
  rw [hp] at this
  exact ⟨hp, ha, fun h => (by simpa using this.2 (.inl h)), fun h => (by simpa using this.2 (.inr (.inl h)))⟩

theorem J.base {i : Nat} {c : List Nat} {d : D} (k : J i c d) (u : Nat) : (d.fl.node u).refcnt = 1 + (d.fl.holders u).length := by
  rw [k.fl.cnt u]
  rcases k.ph u with h | h <;> rw [h] <;> rfl

theorem J.frame {i : Nat} {c : List Nat} {d : D} {fl : FreeList.St} (k : J i c d) (hp : d.pc = .pop) (hI : FreeList.Inv fl) (ho : ∀ j, j ≠ i → fl.pc j = d.fl.pc j) (hh : fl.held = d.fl.held)
    (hph : fl.phase = d.fl.phase) (ha : fl.alloc = d.fl.alloc) (hok : PopOk fl (fl.pc i)) (hg : gotF (fl.pc i) = gotF (d.fl.pc i)) : J i c { d with fl := fl } := by
  have hgot : got i { d with fl := fl } = got i d := by simp only [got, hp, if_true, hg]
  refine ⟨hI, fun j hj => ?_, fun j => ?_, .inr ⟨hp, hok⟩, k.nd, fun u => ?_, fun u hu => ?_, fun u hu => ?_, k.dj, fun u hu => ?_, k.hd⟩
  · simp only; rw [ho j hj]; exact k.oth j hj
  · simp only; rw [hh]; exact k.held j
  · simp only; rw [hph]; exact k.ph u
  · simp only at hu ⊢; rw [hph, hgot]; rw [ha] at hu; exact k.us u hu
  · simp only; rw [ha]; exact k.ex u hu
  · rw [hgot] at hu
    simp only; rw [ha]; exact k.gg u hu

theorem J.not_touched {i : Nat} {c : List Nat} {d : D} (k : J i c d) (hp : d.pc = .pop) (hok : PopOk d.fl (d.fl.pc i)) : (touches (d.fl.pc i)).any (d.gone.contains ·) = false := by
  cases hf : d.fl.pc i <;> rw [hf] at hok <;> simp only [touches, Option.any_none, Option.any_some, PopOk] at hok ⊢
  case rel u b kk =>
    cases b <;> cases kk <;> simp only [PopOk] at hok
    · simpa using (k.top hok).2.2.1
    · rename_i v
      subst hok
      simpa using (k.gg u (by simp [got, hp, hf, gotF, gotK])).1
  case pop2 u => simpa using (k.top hok).2.2.1
  case pop3 u n => simpa using (k.top hok.1).2.2.1
  case pop4 u => simpa using (k.top hok).2.2.1

/-- A step of the first loop. -/
theorem J.step {i : Nat} {c : List Nat} {d : D} (k : J i c d) (hl : Path d.next (some d.head) c) (hnd : c.Nodup) (ch : Bool) :
    (J i c (step i ch d) ∧ (ch = true → left i (step i ch d) < left i d)) ∨ (∃ p l, (step i ch d).pc = .walk p ∧ W p l (step i ch d)) := by
  rcases k.pc with ⟨hp, hr⟩ | ⟨hp, hok⟩
  · left
    have hs : QueueGone.step i ch d = { d with fl := FreeList.call d.fl i .pop, pc := .pop } := by simp only [QueueGone.step, hp]
    rw [hs]
    have hi : FreeList.Inv (FreeList.call d.fl i .pop) := by
      have k0 := k.fl
      have h1 : FreeList.Inv { d.fl with bad := false } := ⟨k0.cnt, k0.hold, k0.pend, k0.zero, k0.lv, k0.pt, k0.en, k0.know, k0.chain, k0.nodup, k0.mem, k0.fresh, k0.ptr, k0.sane⟩
      have hid : FreeList.St.idle { d.fl with bad := false } i = true := by
        simp only [FreeList.St.idle]
        cases hx : d.fl.pc i <;> rw [hx] at hr <;> first | rfl | (cases hr; done)
      have h2 := FreeList.inv_call (op := .pop) h1 hid rfl rfl
      exact ⟨h2.cnt, h2.hold, h2.pend, h2.zero, h2.lv, h2.pt, h2.en, h2.know, h2.chain, h2.nodup, h2.mem, h2.fresh, h2.ptr, h2.sane⟩
    refine ⟨⟨hi, fun j hj => ?_, k.held, .inr ⟨rfl, ?_⟩, k.nd, k.ph, fun u hu => ?_, k.ex, k.dj, fun u hu => ?_, k.hd⟩, fun _ => ?_⟩
    · simp only [FreeList.call, FreeList.St.setPc, upd_other _ _ hj]; exact k.oth j hj
    · simp [FreeList.call, FreeList.St.setPc, PopOk]
    · have := k.us u hu
      simp only [got, hp, FreeList.call, FreeList.St.setPc, upd_self, gotF] at this ⊢
      simpa using this
    · simp [got, FreeList.call, FreeList.St.setPc, gotF] at hu
    · simp [left, hp, FreeList.call, FreeList.St.setPc, popLeft]
  · have ht := k.not_touched hp hok
    cases hf : d.fl.pc i <;> rw [hf] at hok ht
    case ret r =>
      cases r <;> simp only [PopOk] at hok
      case empty =>
        right
        have hs : QueueGone.step i ch d = { d with pc := .walk (some d.head) } := by simp only [QueueGone.step, hp, hf]
        rw [hs]
        refine ⟨_, c, rfl, hl, k.nd, hnd, fun u hu hg => k.dj u hg hu, fun u => ⟨fun hu => ?_, k.ex u⟩⟩
        have hx := (k.us u hu).1 (by
          rcases k.ph u with h | h
          · exact h
          · have := (k.fl.mem u).2 (.inl h)
            rw [hok] at this; cases this)
        have hgn : got i d = none := by simp [got, hf, gotF]
        rw [hgn] at hx
        rcases hx with h | h | h
        · exact .inl h
        · exact .inr h
        · cases h
      case popped u =>
        left
        have hg : got i d = some u := by simp [got, hp, hf, gotF]
        obtain ⟨g1, g2, g3⟩ := k.gg u hg
        have hs : QueueGone.step i ch d = { d with gone := u :: d.gone, pc := .call } := by simp only [QueueGone.step, hp, hf, D.delete, if_neg g1]
        rw [hs]
        refine ⟨⟨k.fl, k.oth, k.held, .inl ⟨rfl, by simp only [hf]; rfl⟩, ?_, k.ph, fun v hv => ?_, fun v hv => ?_, fun v hv => ?_, fun v hv => ?_, k.hd⟩, fun _ => ?_⟩
        · exact List.nodup_cons.2 ⟨g1, k.nd⟩
        · have := k.us v hv
          rw [hg] at this
          simp only [got, List.mem_cons]
          simp only [Option.some.injEq] at this
          rw [this]
          simp
          constructor
          · rintro (h | h | h)
            · exact .inl (.inr h)
            · exact .inr h
            · exact .inl (.inl h.symm)
          · rintro ((h | h) | h)
            · exact .inr (.inr h.symm)
            · exact .inl h
            · exact .inr (.inl h)
        · simp only [List.mem_cons] at hv
          rcases hv with (h | h) | h
          · rw [h]; exact g3
          · exact k.ex v (.inl h)
          · exact k.ex v (.inr h)
        · simp only [List.mem_cons] at hv
          rcases hv with h | h
          · rw [h]; exact g2
          · exact k.dj v h
        · simp [got] at hv
        · simp [left, hp, hf, popLeft]
    all_goals try (simp only [PopOk] at hok; done)
    all_goals left
    all_goals (
      obtain ⟨fl, hm⟩ : ∃ fl, FreeList.micro d.fl i ch = some fl := by simp [FreeList.micro, hf]
      have hs : QueueGone.step i ch d = { d with fl := fl } := by
        simp only [QueueGone.step, hp, hf, ht, Bool.false_eq_true, if_false, hm]
      rw [hs]
      have hI := FreeList.inv_micro k.fl hm
      have hoth : ∀ j, j ≠ i → fl.pc j = d.fl.pc j := fun j hj => micro_other hm hj
      simp only [FreeList.micro, hf, Option.some.injEq] at hm)
    case pop1 =>
      cases htop : d.fl.top with
      | none =>
        simp only [htop] at hm
        subst hm
        have hli : d.fl.list = [] := by
          have := k.fl.chain
          rw [htop] at this
          cases hq : d.fl.list with
          | nil => rfl
          | cons v l => rw [hq] at this; cases this.1
        exact ⟨k.frame hp hI hoth rfl rfl rfl (by simp [FreeList.St.setPc, PopOk, hli]) (by simp [FreeList.St.setPc, hf, gotF]), fun _ => by simp [left, hp, hf, FreeList.St.setPc, popLeft]⟩
      | some u =>
        simp only [htop] at hm
        subst hm
        exact ⟨k.frame hp hI hoth rfl rfl rfl (by simp [FreeList.St.setPc, PopOk, htop]) (by simp [FreeList.St.setPc, hf, gotF]), fun _ => by simp [left, hp, hf, FreeList.St.setPc, popLeft]⟩
    case pop2 u =>
      have hb := k.base u
      rw [if_neg (by omega)] at hm
      subst hm
      simp only [PopOk] at hok
      exact ⟨k.frame hp hI hoth rfl rfl rfl (by simp [FreeList.St.setPc, PopOk, hok]) (by simp [FreeList.St.setPc, hf, gotF]), fun _ => by simp [left, hp, hf, FreeList.St.setPc, popLeft]⟩
    case pop3 u n =>
      simp only [PopOk] at hok
      split at hm
      · subst hm
        exact ⟨k.frame hp hI hoth rfl rfl rfl (by simp [FreeList.St.setPc, FreeList.St.setCnt, FreeList.St.addHolder, PopOk, hok.1]) (by simp [FreeList.St.setPc, hf, gotF]),
          fun _ => by simp [left, hp, hf, FreeList.St.setPc, FreeList.St.setCnt, FreeList.St.addHolder, popLeft]⟩
      · rename_i hn
        subst hm
        exact ⟨k.frame hp hI hoth rfl rfl rfl (by simp [FreeList.St.setPc, PopOk]) (by simp [FreeList.St.setPc, hf, gotF]), fun hc => by simp [hc, hok.2] at hn⟩
    case pop4 u =>
      simp only [PopOk] at hok
      subst hm
      exact ⟨k.frame hp hI hoth rfl rfl rfl (by simp [FreeList.St.setPc, PopOk, hok]) (by simp [FreeList.St.setPc, hf, gotF]), fun _ => by simp [left, hp, hf, FreeList.St.setPc, popLeft]⟩
    case pop5 u nv =>
      simp only [PopOk] at hok
      obtain ⟨t1, t2, t3, t4⟩ := k.top hok
      split at hm
      · subst hm
        have hg0 : got i d = none := by simp [got, hf, gotF]
        obtain ⟨l, hll, _⟩ := top_mem k.fl hok
        refine ⟨⟨hI, fun j hj => ?_, k.held, .inr ⟨hp, ?_⟩, k.nd, fun v => ?_, fun v hv => ?_, k.ex, k.dj, fun v hv => ?_, k.hd⟩, fun _ => ?_⟩
        · simp only; rw [hoth j hj]; exact k.oth j hj
        · simp [FreeList.St.setPc, FreeList.St.setPhase, PopOk]
        · simp only [FreeList.St.setPc, FreeList.St.setPhase, upd_apply]
          split
          · exact .inl rfl
          · exact k.ph v
        · have := k.us v hv
          rw [hg0] at this
          simp only [got, hp, if_true, FreeList.St.setPc, FreeList.St.setPhase, upd_self, gotF, gotK, Option.some.injEq]
          simp only [upd_apply]
          by_cases e : v = u
          · simp [e]
          · simp [e, Ne.symm e, this]
        · simp only [got, hp, if_true, FreeList.St.setPc, FreeList.St.setPhase, upd_self, gotF, gotK, Option.some.injEq] at hv
          subst hv
          exact ⟨t3, t4, t2⟩
        · simp [left, hp, hf, FreeList.St.setPc, FreeList.St.setPhase, popLeft, hll]
          omega
      · rename_i hn
        subst hm
        exact ⟨k.frame hp hI hoth rfl rfl rfl (by simp [FreeList.St.setPc, PopOk, hok]) (by simp [FreeList.St.setPc, hf, gotF, gotK]), fun hc => by simp [hc, hok] at hn⟩
    case rel u b kk =>
      have hb := k.base u
      have hc := k.fl.hold i u
      cases b with
      | true => cases kk <;> simp only [PopOk] at hok
      | false =>
        have hn : (d.fl.node u).refcnt ≠ 1 := by
          have h1 : (d.fl.holders u).count i ≤ (d.fl.holders u).length := List.count_le_length
          rw [hf] at hc
          simp only [FreeList.Pc.holds, if_true] at hc
          omega
        simp only [FreeList.release, if_pos hn, Bool.false_eq_true, if_false] at hm
        subst hm
        refine ⟨k.frame hp hI hoth rfl rfl rfl ?_ ?_, fun _ => ?_⟩
        · cases kk <;> simp [FreeList.St.setPc, FreeList.St.setCnt, FreeList.St.delHolder, PopOk, FreeList.K.pc] at hok ⊢
        · simp only [FreeList.St.setPc, upd_self, gotF_k, hf]; rfl
        · cases kk <;> simp [PopOk] at hok <;> simp [left, hp, hf, FreeList.St.setPc, FreeList.St.setCnt, FreeList.St.delHolder, popLeft, FreeList.K.pc]

/-- A step of the second one. -/
theorem W.step {i : Nat} {p : Option Nat} {l : List Nat} {d : D} (hp : d.pc = .walk p) (k : W p l d) (ch : Bool) :
    (∃ u l', l = u :: l' ∧ (step i ch d).pc = .walk (d.next u) ∧ W (d.next u) l' (step i ch d)) ∨
    (l = [] ∧ (step i ch d).pc = .ended ∧ (step i ch d).gone.Nodup ∧ ∀ u, u < (step i ch d).fl.alloc ↔ u ∈ (step i ch d).gone) := by
  cases l with
  | nil =>
    right
    have h := k.path
    simp only [Path] at h
    subst h
    simp only [QueueGone.step, hp]
    exact ⟨trivial, trivial, k.nd, fun u => by simpa using k.al u⟩
  | cons u l =>
    left
    obtain ⟨h1, h2⟩ := k.path
    subst h1
    have hu := k.dj u (by simp)
    have hnd := List.nodup_cons.1 k.ld
    refine ⟨u, l, rfl, ?_⟩
    simp only [QueueGone.step, hp, if_neg hu, D.delete]
    refine ⟨trivial, h2, List.nodup_cons.2 ⟨hu, k.nd⟩, hnd.2, fun v hv => ?_, fun v => ?_⟩
    · simp only [List.mem_cons, not_or]
      exact ⟨fun e => hnd.1 (e ▸ hv), k.dj v (by simp [hv])⟩
    · rw [k.al v]
      simp only [List.mem_cons]
      constructor
      · rintro (h | h | h)
        · exact .inl (.inr h)
        · exact .inl (.inl h)
        · exact .inr h
      · rintro ((h | h) | h)
        · exact .inr (.inl h)
        · exact .inl h
        · exact .inr (.inr h)

/-- The queue stays. -/
def Same (d0 d : D) : Prop := d.next = d0.next ∧ d.head = d0.head ∧ d.fl.alloc = d0.fl.alloc

theorem micro_alloc {s s' : FreeList.St} {i : Nat} {ch : Bool} (h : FreeList.micro s i ch = some s') : s'.alloc = s.alloc := by
  simp only [FreeList.micro] at h
  cases hp : s.pc i <;> simp only [hp] at h
  all_goals try (cases h; done)
  all_goals (cases h)
  all_goals (try simp only [FreeList.release, FreeList.St.setPc, FreeList.St.setCnt, FreeList.St.addHolder, FreeList.St.setFreed, FreeList.St.setNext, FreeList.St.setPhase, FreeList.St.delHolder])
  all_goals (repeat' split)
  all_goals rfl

theorem same_step {i : Nat} {ch : Bool} {d0 d : D} (k : Same d0 d) : Same d0 (step i ch d) := by
  obtain ⟨h1, h2, h3⟩ := k
  simp only [step, D.delete]
  repeat' split
  all_goals first
    | exact ⟨h1, h2, h3⟩
    | (rename_i h; exact ⟨h1, h2, by simp only; rw [micro_alloc h]; exact h3⟩)

theorem run_append (i : Nat) (d : D) (l m : List Bool) : run i d (l ++ m) = run i (run i d l) m := by simp [run, List.foldl_append]
theorem run_cons (i : Nat) (d : D) (b : Bool) (m : List Bool) : run i d (b :: m) = run i (step i b d) m := rfl

theorem k_step {i : Nat} {c : List Nat} {d : D} (k : K i c d) (hl : Path d.next (some d.head) c) (hnd : c.Nodup) (ch : Bool) : K i c (step i ch d) := by
  cases k with
  | pops h =>
    rcases h.step hl hnd ch with ⟨h, _⟩ | ⟨p, l, h1, h2⟩
    · exact .pops h
    · exact .walk p l h1 h2
  | walk p l hp h =>
    rcases W.step (i := i) hp h ch with ⟨u, l', _, h1, h2⟩ | ⟨_, h1, h2, h3⟩
    · exact .walk _ _ h1 h2
    · exact .ended h1 h2 h3
  | ended hp nd al =>
    have : step i ch d = d := by simp only [step, hp]
    rw [this]; exact .ended hp nd al

theorem k_run {i : Nat} {c : List Nat} (hnd : c.Nodup) : ∀ {chs : List Bool} {d : D}, K i c d → Path d.next (some d.head) c → K i c (run i d chs) ∧ Same d (run i d chs)
  | [], d, k, _ => ⟨k, rfl, rfl, rfl⟩
  | ch :: chs, d, k, hl => by
    have hs : Same d (step i ch d) := same_step ⟨rfl, rfl, rfl⟩
    obtain ⟨h1, h2⟩ := k_run hnd (chs := chs) (k_step k hl hnd ch) (by rw [hs.1, hs.2.1]; exact hl)
    rw [run_cons]
    exact ⟨h1, by rw [h2.1, hs.1], by rw [h2.2.1, hs.2.1], by rw [h2.2.2, hs.2.2]⟩

theorem w_ends {i : Nat} : ∀ {l : List Nat} {p : Option Nat} {d : D}, d.pc = .walk p → W p l d → ∃ n, (run i d (List.replicate n true)).pc = .ended
  | l, p, d, hp, k => by
    rcases W.step (i := i) hp k true with ⟨u, l', e, h1, h2⟩ | ⟨_, h1, _⟩
    · obtain ⟨n, hn⟩ := w_ends h1 h2
      exact ⟨n + 1, hn⟩
    · exact ⟨1, h1⟩
  termination_by l => l.length
  decreasing_by subst e; simp

theorem j_ends {i : Nat} {c : List Nat} (hnd : c.Nodup) {d : D} (k : J i c d) (hl : Path d.next (some d.head) c) : ∃ n, (run i d (List.replicate n true)).pc = .ended := by
  have hs : Same d (step i true d) := same_step ⟨rfl, rfl, rfl⟩
  rcases k.step hl hnd true with ⟨h1, h2⟩ | ⟨p, l, h1, h2⟩
  · have h2 := h2 rfl
    obtain ⟨n, hn⟩ := j_ends hnd h1 (by rw [hs.1, hs.2.1]; exact hl)
    exact ⟨n + 1, hn⟩
  · obtain ⟨n, hn⟩ := w_ends (i := i) h1 h2
    exact ⟨n + 1, hn⟩
  termination_by left i d

theorem k_ends {i : Nat} {c : List Nat} (hnd : c.Nodup) {d : D} (k : K i c d) (hl : Path d.next (some d.head) c) : ∃ n, (run i d (List.replicate n true)).pc = .ended := by
  cases k with
  | pops h => exact j_ends hnd h hl
  | walk p l hp h => exact w_ends hp h
  | ended hp _ _ => exact ⟨0, hp⟩

/-- When no operation is running, each block is in the free list or in the queue. -/
theorem j_start {α : Type} [DecidableEq α] {B : Nat} {m : Mode} {s : Queue.St α} (k : Inv B m s) (ki : IdleFl s) (kk : PrivOk s) (hi : ∀ j, ∃ x, s.pc j = .idle x) (i : Nat) :
    J i s.chain (start s) ∧ Path (start s).next (some (start s).head) s.chain := by
  have hr : ∀ j, ∃ r, s.fl.pc j = .ret r := fun j => by obtain ⟨x, h⟩ := hi j; exact ki j x h
  have hret : ∀ j, retF (s.fl.pc j) = true := fun j => by obtain ⟨r, h⟩ := hr j; rw [h]; rfl
  have hheld : ∀ j, s.fl.held j = [] := fun j => by
    obtain ⟨x, h⟩ := hi j
    rw [k.held j, h]; rfl
  have hhol : ∀ u, s.fl.holders u = [] := fun u => by
    apply List.eq_nil_iff_forall_not_mem.2
    intro j hj
    have h1 := k.fl.hold j u
    obtain ⟨r, h2⟩ := hr j
    rw [hheld j, h2] at h1
    have := List.count_pos_iff.2 hj
    simp [FreeList.Pc.holds] at h1
    omega
  have hph : ∀ u, s.fl.phase u = .used ∨ s.fl.phase u = .listed := fun u => by
    cases hu : s.fl.phase u with
    | used => simp
    | listed => simp
    | leaving j => have := (k.fl.lv u j).1 hu; obtain ⟨r, h2⟩ := hr j; rw [h2] at this; cases this
    | putting j => have := (k.fl.pt u j).1 hu; obtain ⟨r, h2⟩ := hr j; rw [h2] at this; cases this
    | entering j => have := (k.fl.en u j).1 hu; obtain ⟨r, h2⟩ := hr j; rw [h2] at this; cases this
    | pending => exact absurd (hhol u) (k.fl.pend u hu)
  have hst : ∀ u, u < s.fl.alloc → (s.fl.phase u = .used ↔ u ∈ s.chain) := fun u hu => by
    have h1 := k.st u hu
    rw [k.mem]
    cases hs : s.stat u with
    | free => rw [hs] at h1; simpa using h1
    | chain => rw [hs] at h1; simpa using h1
    | priv j =>
      have := kk u j hs
      obtain ⟨x, h⟩ := hi j
      rw [h] at this; cases this
  refine ⟨⟨k.fl, fun j _ => hret j, hheld, .inl ⟨rfl, hret i⟩, List.nodup_nil, hph, fun u hu => ?_, fun u hu => ?_, fun u hu => (by cases hu), fun u hu => (by simp [got, start] at hu), k.hd⟩, path_of_linked k.link k.hd⟩
  · rw [show (start s).fl = s.fl from rfl] at hu ⊢
    rw [hst u hu]
    simp [start, got]
  · rcases hu with hu | hu
    · cases hu
    · apply Nat.lt_of_not_le
      intro hx
      have := (k.un u hx).1
      rw [(k.mem u).1 hu] at this
      cases this

end QueueGone
end Salticidae
