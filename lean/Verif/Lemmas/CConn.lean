import Verif.Model.CConn
import Verif.Lemmas.ConnRef
/-!
C116: handles of the C interface.
-/
namespace Salticidae
namespace CConn
open ConnRef Pool

/-- The number of handles to `c`. -/
def handles (l : List (Nat × Nat)) (c : Nat) : Nat := l.countP (fun e => e.2 = c)

structure Inv (g : Cfg) (s : St) : Prop where
  r : RInv g.net s.r
  user : ∀ c, s.r.user c = handles s.hs c
  nodup : (s.hs.map (·.1)).Nodup
  bad : s.bad = false

theorem inv_init (g : Cfg) : Inv g init := ⟨rinv_init _, fun _ => rfl, by simp [init], rfl⟩

/-- A step of Model/ConnRef and the handles of the program. -/
theorem user_step {g : ConnRef.Cfg} {s r : RSt} {a : RAct} (h : rstep g s a = some r) (ha : internal a = true ∨ ∃ c, a = .pool (.terminate c)) : r.user = s.user := by
  rw [rstep, Option.map_eq_some_iff] at h
  obtain ⟨s', he, rfl⟩ := h
  have hk : ∀ m, (hooks g s m).user = s.user := fun m => rfl
  show s'.user = s.user
  cases a with
  | pool b =>
    have hx : ∃ m, s' = hooks g s m := by
      simp only [effect] at he
      split at he
      all_goals first
        | cases he
        | (split at he
           · rw [Option.map_eq_some_iff] at he; obtain ⟨m, _, rfl⟩ := he; exact ⟨m, rfl⟩
           · cases he)
    obtain ⟨m, rfl⟩ := hx
    rfl
  | dial fd ok give =>
    have hg : give = false := by
      rcases ha with ha | ⟨c, ha⟩
      · simpa [internal] using ha
      · cases ha
    subst hg
    simp only [effect] at he
    split at he
    · rw [Option.map_eq_some_iff] at he; obtain ⟨m, _, rfl⟩ := he; rfl
    · cases he
  | told b keep =>
    have hg : keep = false := by
      rcases ha with ha | ⟨c, ha⟩
      · simpa [internal] using ha
      · cases ha
    subst hg
    simp only [effect] at he
    split at he
    · cases he
    · split at he
      · cases he
      · rw [Option.map_eq_some_iff] at he; obtain ⟨m, _, rfl⟩ := he; rfl
  | read c k full =>
    simp only [effect] at he
    split at he
    · rw [Option.map_eq_some_iff] at he; obtain ⟨m, _, rfl⟩ := he; rfl
    · cases he
  | retry c k full =>
    simp only [effect] at he
    split at he
    · rw [Option.map_eq_some_iff] at he; obtain ⟨m, _, rfl⟩ := he; rfl
    · cases he
  | handle keep =>
    have hg : keep = false := by
      rcases ha with ha | ⟨c, ha⟩
      · simpa [internal] using ha
      · cases ha
    subst hg
    simp only [effect] at he
    split at he
    · split at he
      · cases he
      · rw [Option.map_eq_some_iff] at he; obtain ⟨m, _, rfl⟩ := he; rfl
    · cases he
  | drop =>
    simp only [effect] at he
    split at he
    · cases he
    · rw [Option.map_eq_some_iff] at he; obtain ⟨m, _, rfl⟩ := he; rfl
  | copy c => rcases ha with ha | ⟨c, ha⟩ <;> cases ha
  | release c => rcases ha with ha | ⟨c, ha⟩ <;> cases ha
  | stop =>
    simp only [effect] at he
    split at he <;> cases he <;> rfl
  | destroy =>
    simp only [effect] at he
    split at he
    · cases he
    · cases he
      simp only
      split <;> rfl

theorem upd_user {s : RSt} {c : Nat} {v : Nat} (d : Nat) : upd s.user c v d = if d = c then v else s.user d := by
  unfold upd; rfl

theorem deref_mem {s : St} {p c : Nat} (h : deref s p = some c) : (p, c) ∈ s.hs := by
  unfold deref at h
  rw [Option.map_eq_some_iff] at h
  obtain ⟨e, h1, h2⟩ := h
  have := List.find?_some h1
  simp only [decide_eq_true_eq] at this
  have hm := List.mem_of_find?_eq_some h1
  rw [← this, ← h2]; exact hm

theorem mem_deref {s : St} {p c : Nat} (hn : (s.hs.map (·.1)).Nodup) (h : (p, c) ∈ s.hs) : deref s p = some c := by
  unfold deref
  generalize s.hs = l at hn h
  induction l with
  | nil => cases h
  | cons x l ih =>
    simp only [List.map_cons, List.nodup_cons] at hn
    rcases List.mem_cons.mp h with e | e
    · subst e; simp
    · have : x.1 ≠ p := by
        intro e'
        apply hn.1
        rw [e']; exact List.mem_map.mpr ⟨_, e, rfl⟩
      simp only [List.find?_cons, decide_eq_false this]
      exact ih hn.2 e

theorem handles_cons {p c : Nat} {l : List (Nat × Nat)} (d : Nat) : handles ((p, c) :: l) d = handles l d + if c = d then 1 else 0 := by
  unfold handles; rw [List.countP_cons]; simp

theorem handles_pos {s : St} {p c : Nat} (h : (p, c) ∈ s.hs) : 0 < handles s.hs c := by
  unfold handles
  rw [List.countP_pos_iff]
  exact ⟨_, h, by simp⟩

theorem handles_filter {l : List (Nat × Nat)} {p c : Nat} (hn : (l.map (·.1)).Nodup) (h : (p, c) ∈ l) (d : Nat) :
    handles (l.filter (fun e => e.1 ≠ p)) d + (if c = d then 1 else 0) = handles l d := by
  induction l with
  | nil => cases h
  | cons x l ih =>
    simp only [List.map_cons, List.nodup_cons] at hn
    by_cases e : x.1 = p
    · have hl : l.filter (fun e => e.1 ≠ p) = l := by
        rw [List.filter_eq_self]
        intro y hy
        simp only [ne_eq, decide_not, Bool.not_eq_true', decide_eq_false_iff_not]
        intro e'
        apply hn.1
        rw [e, ← e']; exact List.mem_map.mpr ⟨_, hy, rfl⟩
      have hx : x = (p, c) := by
        rcases List.mem_cons.mp h with h | h
        · exact h.symm
        · exfalso; apply hn.1; rw [e]; exact List.mem_map.mpr ⟨_, h, rfl⟩
      rw [List.filter_cons, if_neg (by simp [e]), hl, hx, handles_cons]
    · have hm : (p, c) ∈ l := by
        rcases List.mem_cons.mp h with h | h
        · exact absurd (by rw [← h]) e
        · exact h
      rw [List.filter_cons, if_pos (by simp [e])]
      obtain ⟨x1, x2⟩ := x
      rw [handles_cons, handles_cons]
      have := ih hn.2 hm
      omega

/-- The connection of a handle exists and is not destroyed. -/
theorem alive {g : Cfg} {s : St} (i : Inv g s) {p c : Nat} (h : (p, c) ∈ s.hs) : c < s.r.m.st.n ∧ s.r.gone c = 0 := by
  have hu : s.r.user c ≠ 0 := by rw [i.user]; have := handles_pos h; omega
  have hh : held g.net s.r c = true := by simp [held, hu]
  have hc : c < s.r.m.st.n := by
    apply Nat.lt_of_not_le
    intro hle
    rw [(i.r.acc.far c hle).1] at hh; cases hh
  exact ⟨hc, by rw [i.r.acc.acc c hc, if_pos hh]⟩

theorem touched_ok {g : Cfg} {s : St} (i : Inv g s) {p c : Nat} (h : deref s p = some c) : touched s c = false := by
  simp [touched, i.bad, (alive i (deref_mem h)).2]

theorem alloc_nodup {g : Cfg} {s : St} (i : Inv g s) (c : Nat) : ((alloc g s c).map (·.1)).Nodup := by
  simp only [alloc, List.map_cons, List.nodup_cons]
  exact ⟨g.fresh _, i.nodup⟩

/-- A step in which the program is given a handle to `c`. -/
theorem given {g : Cfg} {s : St} {r : RSt} {c : Nat} {b : Bool} (i : Inv g s) (hr : RInv g.net r) (hu : ∀ d, r.user d = if d = c then s.r.user c + 1 else s.r.user d)
    (hb : b = false) : Inv g { r := r, hs := alloc g s c, bad := b } := by
  refine ⟨hr, fun d => ?_, alloc_nodup i c, hb⟩
  show r.user d = handles (alloc g s c) d
  rw [hu]
  unfold alloc
  rw [handles_cons, ← i.user]
  by_cases e : d = c
  · subst e; simp
  · rw [if_neg e, if_neg (fun h => e h.symm)]; rfl

theorem inv_step {g : Cfg} {s t : St} {a : Act} (i : Inv g s) (h : step g s a = some t) : Inv g t := by
  cases a with
  | sys a =>
    simp only [step] at h
    split at h
    · rename_i ha
      rw [Option.map_eq_some_iff] at h
      obtain ⟨r, hr, rfl⟩ := h
      exact ⟨(rinv_step i.r hr).1, fun c => by show r.user c = _; rw [user_step hr (.inl ha)]; exact i.user c, i.nodup, i.bad⟩
    · cases h
  | connect fd ok =>
    simp only [step, Option.map_eq_some_iff] at h
    obtain ⟨r, hr, rfl⟩ := h
    refine given i (rinv_step i.r hr).1 (fun d => ?_) i.bad
    rw [rstep, Option.map_eq_some_iff] at hr
    obtain ⟨s', he, rfl⟩ := hr
    simp only [effect] at he
    split at he
    · rw [Option.map_eq_some_iff] at he; obtain ⟨m, _, rfl⟩ := he
      simp only [if_true, upd]; rfl
    · cases he
  | told b =>
    simp only [step] at h
    split at h
    · cases h
    · rename_i u us hq
      rw [Option.map_eq_some_iff] at h
      obtain ⟨r, hr, rfl⟩ := h
      refine given i (rinv_step i.r hr).1 (fun d => ?_) i.bad
      rw [rstep, Option.map_eq_some_iff] at hr
      obtain ⟨s', he, rfl⟩ := hr
      simp only [effect, hq] at he
      split at he
      · cases he
      · rw [Option.map_eq_some_iff] at he; obtain ⟨m, _, rfl⟩ := he
        simp only [if_true, upd]; rfl
  | handle =>
    simp only [step] at h
    split at h
    · cases h
    · rename_i u us hq
      rw [Option.map_eq_some_iff] at h
      obtain ⟨r, hr, rfl⟩ := h
      refine given i (rinv_step i.r hr).1 (fun d => ?_) i.bad
      rw [rstep, Option.map_eq_some_iff] at hr
      obtain ⟨s', he, rfl⟩ := hr
      simp only [effect, hq] at he
      split at he
      · rw [Option.map_eq_some_iff] at he; obtain ⟨m, _, rfl⟩ := he
        simp only [if_true, upd]; rfl
      · cases he
  | copy p =>
    simp only [step, Option.bind_eq_some_iff, Option.map_eq_some_iff] at h
    obtain ⟨c, hc, r, hr, rfl⟩ := h
    refine given i (rinv_step i.r hr).1 (fun d => ?_) (touched_ok i hc)
    rw [rstep, Option.map_eq_some_iff] at hr
    obtain ⟨s', he, rfl⟩ := hr
    simp only [effect] at he
    split at he <;> cases he
    simp only [upd]
  | free p =>
    simp only [step, Option.bind_eq_some_iff, Option.map_eq_some_iff] at h
    obtain ⟨c, hc, r, hr, rfl⟩ := h
    have hr' := (rinv_step i.r hr).1
    rw [rstep, Option.map_eq_some_iff] at hr
    obtain ⟨s', he, rfl⟩ := hr
    simp only [effect] at he
    split at he <;> cases he
    refine ⟨hr', fun d => ?_, ?_, touched_ok i hc⟩
    · have := handles_filter i.nodup (deref_mem hc) d
      have hu := i.user d
      simp only [upd]
      by_cases e : d = c
      · subst e
        rw [if_pos rfl] at this
        rw [if_pos rfl, hu]; omega
      · rw [if_neg (fun h => e h.symm)] at this
        rw [if_neg e, hu]; omega
    · exact (List.filter_sublist.map _).nodup i.nodup
  | look p =>
    simp only [step, Option.map_eq_some_iff] at h
    obtain ⟨c, hc, rfl⟩ := h
    exact ⟨i.r, i.user, i.nodup, touched_ok i hc⟩
  | terminate p =>
    simp only [step, Option.bind_eq_some_iff, Option.map_eq_some_iff] at h
    obtain ⟨c, hc, r, hr, rfl⟩ := h
    exact ⟨(rinv_step i.r hr).1, fun d => by show r.user d = _; rw [user_step hr (.inr ⟨c, rfl⟩)]; exact i.user d, i.nodup, touched_ok i hc⟩

theorem inv_run {g : Cfg} {as : List Act} {s t : St} (i : Inv g s) (h : run g s as = some t) : Inv g t := by
  induction as generalizing s with
  | nil => cases h; exact i
  | cons a as ih =>
    simp only [run, Option.bind_eq_some_iff] at h
    obtain ⟨u, hu, h⟩ := h
    exact ih (inv_step i hu) h

/-- Handles stay until they are freed. -/
theorem stays {g : Cfg} {s t : St} {a : Act} {p c : Nat} (h : step g s a = some t) (hm : (p, c) ∈ s.hs) (ha : a ≠ .free p) : (p, c) ∈ t.hs := by
  cases a with
  | sys a =>
    simp only [step] at h
    split at h
    · rw [Option.map_eq_some_iff] at h; obtain ⟨r, _, rfl⟩ := h; exact hm
    · cases h
  | connect fd ok => simp only [step, Option.map_eq_some_iff] at h; obtain ⟨r, _, rfl⟩ := h; exact List.mem_cons_of_mem _ hm
  | told b =>
    simp only [step] at h
    split at h
    · cases h
    · rw [Option.map_eq_some_iff] at h; obtain ⟨r, _, rfl⟩ := h; exact List.mem_cons_of_mem _ hm
  | handle =>
    simp only [step] at h
    split at h
    · cases h
    · rw [Option.map_eq_some_iff] at h; obtain ⟨r, _, rfl⟩ := h; exact List.mem_cons_of_mem _ hm
  | copy q =>
    simp only [step, Option.bind_eq_some_iff, Option.map_eq_some_iff] at h
    obtain ⟨c', hc, r, hr, rfl⟩ := h
    exact List.mem_cons_of_mem _ hm
  | free q =>
    simp only [step, Option.bind_eq_some_iff, Option.map_eq_some_iff] at h
    obtain ⟨c', hc, r, hr, rfl⟩ := h
    rw [List.mem_filter]
    refine ⟨hm, ?_⟩
    simp only [ne_eq, decide_not, Bool.not_eq_true', decide_eq_false_iff_not]
    intro e; apply ha; rw [← e]
  | look q => simp only [step, Option.map_eq_some_iff] at h; obtain ⟨c, hc, rfl⟩ := h; exact hm
  | terminate q =>
    simp only [step, Option.bind_eq_some_iff, Option.map_eq_some_iff] at h
    obtain ⟨c', hc, r, hr, rfl⟩ := h
    exact hm

end CConn
end Salticidae
