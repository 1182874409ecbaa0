import Verif.Spec.Logger
import Verif.Lemmas.Util
/-
Helper lemmas for C104.
-/
namespace Salticidae.Logger
open Util
open Salticidae.Spec.Logger (Env line careful)

/-- A logger of the program and one of the specification. -/
structure Same (g : Cfg) (s : St) (e : Env) (m : Lg) (l : Spec.Logger.Lg) : Prop where
  pre : m.pre = l.pre
  col : m.col = g.tty l.file
  opened : m.opened = l.own
  fd : ∃ off, s.fds[m.out]? = some (some ⟨l.file, off⟩) ∧ (g.stream l.file = false → off = (e.files l.file).length)
  std : l.own = false → m.out < g.nstd ∧ g.stream l.file = true
  own : l.own = true → g.nstd ≤ m.out

structure Rel (g : Cfg) (s : St) (e : Env) : Prop where
  files : s.files = e.files
  calls : s.calls = e.calls
  tm : ∀ p ∈ e.calls, p.s = s.tm
  live : ∀ p ∈ e.calls, ∃ l, e.get p.lg = some l ∧ p.text.length < 1024 ∧ (head g l.pre p.lvl p.s p.us).length < 1024
  none : ∀ x, e.get x = none → s.lgs x = none
  some : ∀ x l, e.get x = some l → ∃ m, s.lgs x = some m ∧ Same g s e m l
  outs : ∀ x y m m', s.lgs x = .some m → s.lgs y = .some m' → m.opened = true → m.out = m'.out → x = y
  alone : ∀ x y l l', e.get x = .some l → e.get y = .some l' → l.file = l'.file → g.stream l.file = false → x = y
  stds : ∀ i, i < g.nstd → ∃ off, s.fds[i]? = Option.some (Option.some ⟨i, off⟩)

theorem rel_init (g : Cfg) (old : Nat → Str) : Rel g (init g old) (Spec.Logger.start old) where
  files := rfl
  calls := rfl
  tm := by intro p hp; cases hp
  live := by intro p hp; cases hp
  none := fun _ _ => rfl
  some := by intro x l h; cases h
  outs := by intro x y m m' h; cases h
  alone := by intro x y l l' h; cases h
  stds := by
    intro i hi
    refine ⟨(old i).length, ?_⟩
    simp only [init, List.getElem?_map, List.getElem?_range hi, Option.map_some]

theorem get_add (e : Env) (x y : Nat) (l : Spec.Logger.Lg) : (Spec.Logger.add e x l).get y = if y = x then some l else e.get y := by
  simp only [Spec.Logger.add, Env.get, List.lookup_cons]
  by_cases h : y = x
  · subst h; simp
  · rw [if_neg h]
    have : (y == x) = false := by simpa using h
    rw [this]

theorem lookup_filter (l : List (Nat × Spec.Logger.Lg)) (x y : Nat) :
    (l.filter (·.1 ≠ x)).lookup y = if y = x then none else l.lookup y := by
  induction l with
  | nil => simp
  | cons a l ih =>
    obtain ⟨z, v⟩ := a
    by_cases hz : z = x
    · subst hz
      rw [List.filter_cons_of_neg (by simp), ih, List.lookup_cons]
      by_cases hy : y = z
      · simp [hy]
      · have : (y == z) = false := by simpa using hy
        simp [hy, this]
    · rw [List.filter_cons_of_pos (by simpa using hz), List.lookup_cons, List.lookup_cons, ih]
      by_cases hy : y = z
      · subst hy
        simp [hz]
      · have : (y == z) = false := by simpa using hy
        simp [this]

theorem buff_line (g : Cfg) (m : Lg) (l : Spec.Logger.Lg) (p : Call) (hp : m.pre = l.pre) (hc : m.col = g.tty l.file)
    (ht : p.text.length < 1024) (hh : (head g l.pre p.lvl p.s p.us).length < 1024) :
    buff g m p.lvl p.s p.us p.text = line g l p := by
  unfold buff line
  rw [hp, hc, vstringprintf_short ht, vstringprintf_short hh]
  cases g.tty l.file <;> simp [head, datetime]

theorem put_end (c bs : Str) : put c c.length bs = c ++ bs := by
  simp [put]

theorem alloc_spec (fds : List (Option Desc)) (d : Desc) :
    (fds[(alloc fds d).1]? = none ∨ fds[(alloc fds d).1]? = some none) ∧ (alloc fds d).2[(alloc fds d).1]? = some (some d) ∧
    ∀ i, i ≠ (alloc fds d).1 → (alloc fds d).2[i]? = fds[i]? := by
  unfold alloc
  split
  · rename_i i hi
    obtain ⟨hl, h1, _⟩ := List.findIdx?_eq_some_iff_getElem.1 hi
    refine ⟨.inr ?_, ?_, ?_⟩
    · rw [List.getElem?_eq_getElem hl]
      simpa using h1
    · simp [hl]
    · intro j hj
      rw [List.getElem?_set_ne (by omega)]
  · refine ⟨.inl (by simp), by simp, ?_⟩
    intro j hj
    simp only at hj ⊢
    by_cases h : j < fds.length
    · rw [List.getElem?_append_left h]
    · rw [List.getElem?_eq_none (by simp; omega), List.getElem?_eq_none (by omega)]

/-- What has to be shown of a step. -/
def Good (g : Cfg) (r : Option (St × Out)) (e : Env) (o : Out) : Prop :=
  ∃ s, r = some (s, o) ∧ Rel g s e

theorem step_good (g : Cfg) {s : St} {e e' : Env} {o : Out} (h : Rel g s e) (op : Op) (hc : careful g e op = true)
    (hs : Spec.Logger.step g e op = some (e', o)) : Good g (step g s op) e' o := by
  cases op with
  | file x f pre ok =>
    simp only [Spec.Logger.step] at hs
    split at hs
    · rename_i hx
      have hsx := h.none x hx
      simp only [step, hsx]
      cases ok with
      | false =>
        simp only [Bool.false_eq_true, if_false, Option.some.injEq, Prod.mk.injEq] at hs
        obtain ⟨rfl, rfl⟩ := hs
        exact ⟨s, rfl, h⟩
      | true =>
        simp only [if_true, Option.some.injEq, Prod.mk.injEq] at hs
        obtain ⟨rfl, rfl⟩ := hs
        obtain ⟨a1, a2, a3⟩ := alloc_spec s.fds ⟨f, 0⟩
        generalize alloc s.fds ⟨f, 0⟩ = r at a1 a2 a3 ⊢
        have hfresh : ∀ i d, s.fds[i]? = some (some d) → i ≠ r.1 := by
          rintro i d hi rfl
          rcases a1 with a1 | a1 <;> rw [a1] at hi <;> cases hi
        have hstd : g.nstd ≤ r.1 := by
          rcases Nat.lt_or_ge r.1 g.nstd with hlt | hge
          · obtain ⟨off, ho⟩ := h.stds _ hlt
            exact absurd rfl (hfresh _ _ ho)
          · exact hge
        have halone : g.stream f = false → e.files f = [] ∧ ∀ y l, e.get y = some l → l.file ≠ f := by
          intro hsf
          simp only [careful, hsf, Bool.false_or, Bool.and_eq_true, beq_iff_eq, List.all_eq_true] at hc
          refine ⟨hc.1, ?_⟩
          intro y l hy
          obtain ⟨l1, l2, heq, -⟩ := List.lookup_eq_some_iff.1 hy
          have := hc.2 (y, l) (by rw [heq]; simp)
          simpa using this
        refine ⟨_, rfl, ?_⟩
        have hold : ∀ y l m, e.get y = some l → s.lgs y = some m → Same g s e m l →
            Same g (setLg { s with fds := r.2 } x (some ⟨r.1, true, pre, isatty g r.2 r.1⟩)) (Spec.Logger.add e x ⟨f, pre, true⟩) m l := by
          intro y l m hy hm hS
          obtain ⟨off, ho, ho'⟩ := hS.fd
          exact ⟨hS.pre, hS.col, hS.opened, ⟨off, by
            simp only [setLg]
            rw [a3 _ (hfresh _ _ ho)]; exact ho, ho'⟩, hS.std, hS.own⟩
        constructor
        · exact h.files
        · exact h.calls
        · exact h.tm
        · intro p hp
          obtain ⟨l, hl, h1⟩ := h.live p hp
          refine ⟨l, ?_, h1⟩
          rw [get_add, if_neg]
          · exact hl
          · rintro hpx
            rw [hpx, hx] at hl; cases hl
        · intro y hy
          rw [get_add] at hy
          split at hy
          · cases hy
          · rename_i hyx
            simp only [setLg, if_neg hyx]
            exact h.none y hy
        · intro y l hy
          rw [get_add] at hy
          split at hy
          · rename_i hyx
            cases hy
            refine ⟨⟨r.1, true, pre, isatty g r.2 r.1⟩, by simp only [setLg, if_pos hyx], ?_⟩
            refine ⟨rfl, by simp only [isatty, a2], rfl, ⟨0, a2, ?_⟩, by simp, fun _ => hstd⟩
            intro hsf
            simp only [Spec.Logger.add, (halone hsf).1, List.length_nil]
          · rename_i hyx
            obtain ⟨m, hm, hS⟩ := h.some y l hy
            exact ⟨m, by simp only [setLg, if_neg hyx]; exact hm, hold y l m hy hm hS⟩
        · intro y z m m' hy hz hop ho
          simp only [setLg] at hy hz
          have key : ∀ w (n : Lg), s.lgs w = some n → n.out ≠ r.1 := by
            intro w n hw
            cases hg : e.get w with
            | none => rw [h.none w hg] at hw; cases hw
            | some l =>
              obtain ⟨m, hm, hS⟩ := h.some w l hg
              rw [hw] at hm; cases hm
              obtain ⟨off, ho, -⟩ := hS.fd
              exact hfresh _ _ ho
          split at hy <;> split at hz
          · rename_i h1 h2; rw [h1, h2]
          · cases hy; exact absurd ho.symm (key _ _ hz)
          · cases hz; exact absurd ho (key _ _ hy)
          · exact h.outs y z m m' hy hz hop ho
        · intro y z l l' hy hz hf hsf
          rw [get_add] at hy hz
          split at hy <;> split at hz
          · rename_i h1 h2; rw [h1, h2]
          · cases hy; exact absurd hf.symm ((halone hsf).2 _ _ hz)
          · cases hz
            simp only at hf
            exact absurd hf ((halone (by rw [← hf]; exact hsf)).2 _ _ hy)
          · exact h.alone y z l l' hy hz hf hsf
        · intro i hi
          obtain ⟨off, ho⟩ := h.stds i hi
          exact ⟨off, by simp only [setLg]; rw [a3 _ (by omega)]; exact ho⟩
    · cases hs
  | fd x n pre =>
    simp only [Spec.Logger.step] at hs
    split at hs
    · rename_i hx
      have hsx := h.none x hx
      split at hs
      · rename_i hn
        simp only [Option.some.injEq, Prod.mk.injEq] at hs
        obtain ⟨rfl, rfl⟩ := hs
        simp only [step, hsx]
        refine ⟨_, rfl, ?_⟩
        obtain ⟨off, ho⟩ := h.stds n hn
        simp only [careful] at hc
        constructor
        · exact h.files
        · exact h.calls
        · exact h.tm
        · intro p hp
          obtain ⟨l, hl, h1⟩ := h.live p hp
          refine ⟨l, ?_, h1⟩
          rw [get_add, if_neg]
          · exact hl
          · rintro hpx
            rw [hpx, hx] at hl; cases hl
        · intro y hy
          rw [get_add] at hy
          split at hy
          · cases hy
          · rename_i hyx
            simp only [setLg, if_neg hyx]
            exact h.none y hy
        · intro y l hy
          rw [get_add] at hy
          split at hy
          · rename_i hyx
            cases hy
            refine ⟨⟨n, false, pre, isatty g s.fds n⟩, by simp only [setLg, if_pos hyx], ?_⟩
            exact ⟨rfl, by simp only [isatty, ho], rfl, ⟨off, ho, by simp [hc]⟩, fun _ => ⟨hn, hc⟩, by simp⟩
          · rename_i hyx
            obtain ⟨m, hm, hS⟩ := h.some y l hy
            exact ⟨m, by simp only [setLg, if_neg hyx]; exact hm, ⟨hS.pre, hS.col, hS.opened, hS.fd, hS.std, hS.own⟩⟩
        · intro y z m m' hy hz hop ho'
          simp only [setLg] at hy hz
          split at hy <;> split at hz
          · rename_i h1 h2; rw [h1, h2]
          · cases hy; cases hop
          · cases hz
            exfalso
            cases hg : e.get y with
            | none => rw [h.none y hg] at hy; cases hy
            | some l =>
              obtain ⟨m2, hm, hS⟩ := h.some y l hg
              rw [hy] at hm; cases hm
              have := hS.own (by rw [← hS.opened]; exact hop)
              simp only at ho'
              omega
          · exact h.outs y z m m' hy hz hop ho'
        · intro y z l l' hy hz hf hsf
          rw [get_add] at hy hz
          split at hy <;> split at hz
          · rename_i h1 h2; rw [h1, h2]
          · cases hy; simp only at hsf; rw [hsf] at hc; cases hc
          · cases hz; simp only at hf; rw [hf, hc] at hsf; cases hsf
          · exact h.alone y z l l' hy hz hf hsf
        · exact h.stds
      · cases hs
    · cases hs
  | copy x y => cases hc
  | destroy x =>
    simp only [Spec.Logger.step] at hs
    split at hs
    · cases hs
    · rename_i l hx
      split at hs
      · cases hs
      · rename_i hb
        simp only [Option.some.injEq, Prod.mk.injEq] at hs
        obtain ⟨rfl, rfl⟩ := hs
        obtain ⟨m, hm, hS⟩ := h.some x l hx
        simp only [step, hm]
        refine ⟨_, rfl, ?_⟩
        have hget : ∀ y, (Env.get { e with lgs := e.lgs.filter (·.1 ≠ x) } y) = if y = x then none else e.get y :=
          fun y => lookup_filter e.lgs x y
        have hfd : ∀ i, (m.opened = true → i ≠ m.out) → (if m.opened then s.fds.set m.out none else s.fds)[i]? = s.fds[i]? := by
          intro i hi
          split
          · rename_i ho
            rw [List.getElem?_set_ne (fun hh => hi ho hh.symm)]
          · rfl
        constructor
        · exact h.files
        · exact h.calls
        · exact h.tm
        · intro p hp
          obtain ⟨l', hl, h1⟩ := h.live p hp
          refine ⟨l', ?_, h1⟩
          rw [hget, if_neg]
          · exact hl
          · intro hpx
            apply hb
            rw [List.any_eq_true]
            exact ⟨p, hp, by simpa using hpx⟩
        · intro y hy
          rw [hget] at hy
          simp only [setLg]
          split
          · rfl
          · rename_i hyx
            rw [if_neg hyx] at hy
            exact h.none y hy
        · intro y l' hy
          rw [hget] at hy
          split at hy
          · cases hy
          · rename_i hyx
            obtain ⟨m', hm', hS'⟩ := h.some y l' hy
            refine ⟨m', by simp only [setLg, if_neg hyx]; exact hm', hS'.pre, hS'.col, hS'.opened, ?_, hS'.std, hS'.own⟩
            obtain ⟨off, ho, ho'⟩ := hS'.fd
            refine ⟨off, ?_, ho'⟩
            simp only [setLg]
            rw [hfd _ (fun hop heq => hyx (h.outs x y m m' hm hm' hop heq.symm).symm)]
            exact ho
        · intro y z m1 m2 hy hz hop ho
          simp only [setLg] at hy hz
          split at hy
          · cases hy
          · split at hz
            · cases hz
            · exact h.outs y z m1 m2 hy hz hop ho
        · intro y z l1 l2 hy hz hf hsf
          rw [hget] at hy hz
          split at hy
          · cases hy
          · split at hz
            · cases hz
            · exact h.alone y z l1 l2 hy hz hf hsf
        · intro i hi
          obtain ⟨off, ho⟩ := h.stds i hi
          refine ⟨off, ?_⟩
          simp only [setLg]
          rw [hfd]
          · exact ho
          · intro hop heq
            have := hS.own (by rw [← hS.opened]; exact hop)
            omega
  | begin x lvl text sec us =>
    simp only [Spec.Logger.step] at hs
    split at hs
    · cases hs
    · rename_i l hx
      split at hs
      · simp only [Option.some.injEq, Prod.mk.injEq] at hs
        obtain ⟨rfl, rfl⟩ := hs
        obtain ⟨m, hm, hS⟩ := h.some x l hx
        simp only [careful, hx, Bool.and_eq_true, decide_eq_true_eq, List.all_eq_true, beq_iff_eq] at hc
        obtain ⟨⟨hc1, hc2⟩, hc3⟩ := hc
        simp only [step, hm]
        refine ⟨_, rfl, ?_⟩
        constructor
        · exact h.files
        · simp only [h.calls]
        · intro p hp
          simp only [List.mem_append, List.mem_singleton] at hp
          rcases hp with hp | rfl
          · exact hc1 p hp
          · rfl
        · intro p hp
          simp only [List.mem_append, List.mem_singleton] at hp
          rcases hp with hp | rfl
          · exact h.live p hp
          · exact ⟨l, hx, hc2, hc3⟩
        · exact h.none
        · intro y l' hy
          obtain ⟨m', hm', hS'⟩ := h.some y l' hy
          exact ⟨m', hm', hS'.pre, hS'.col, hS'.opened, hS'.fd, hS'.std, hS'.own⟩
        · exact h.outs
        · exact h.alone
        · exact h.stds
      · cases hs
  | emit c k =>
    simp only [Spec.Logger.step] at hs
    split at hs
    · cases hs
    · rename_i p hp
      split at hs
      · cases hs
      · rename_i l hl
        simp only [Option.some.injEq, Prod.mk.injEq] at hs
        obtain ⟨rfl, rfl⟩ := hs
        obtain ⟨m, hm, hS⟩ := h.some _ l hl
        have hpm : p ∈ e.calls := List.mem_of_getElem? hp
        obtain ⟨l', hl', ht, hh⟩ := h.live p hpm
        rw [hl] at hl'; cases hl'
        have htm := h.tm p hpm
        simp only [careful, hp, hl, decide_eq_true_eq] at hc
        have hbuf : buff g m p.lvl s.tm p.us p.text = line g l p := by
          rw [← htm]; exact buff_line g m l p hS.pre hS.col ht hh
        obtain ⟨off, ho, ho'⟩ := hS.fd
        simp only [step, h.calls, hp, hm, hbuf, write, ho, List.take_of_length_le hc]
        have hcont : (if g.stream l.file = true then s.files l.file ++ line g l p else put (s.files l.file) off (line g l p)) =
            e.files l.file ++ line g l p := by
          rw [h.files]
          cases hst : g.stream l.file with
          | true => simp
          | false => simp only [Bool.false_eq_true, if_false]; rw [ho' hst, put_end]
        rw [hcont]
        refine ⟨_, rfl, ?_⟩
        have hlt : m.out < s.fds.length := by
          rcases Nat.lt_or_ge m.out s.fds.length with h1 | h1
          · exact h1
          · rw [List.getElem?_eq_none h1] at ho; cases ho
        constructor
        · funext f
          simp only [h.files]
          split
          · rename_i hf; rw [hf]
          · rfl
        · simp only
        · intro q hq
          exact h.tm q (List.mem_of_mem_eraseIdx hq)
        · intro q hq
          exact h.live q (List.mem_of_mem_eraseIdx hq)
        · exact h.none
        · intro y l2 hy
          obtain ⟨m2, hm2, hS2⟩ := h.some y l2 hy
          refine ⟨m2, hm2, hS2.pre, hS2.col, hS2.opened, ?_, hS2.std, hS2.own⟩
          obtain ⟨off2, ho2, ho2'⟩ := hS2.fd
          by_cases heq : m2.out = m.out
          · have hfile : l2.file = l.file := by
              rw [heq, ho] at ho2
              simp only [Option.some.injEq, Desc.mk.injEq] at ho2
              exact ho2.1.symm
            refine ⟨off + (line g l p).length, ?_, ?_⟩
            · simp only [heq]
              rw [List.getElem?_set_self hlt, hfile]
            · intro hst
              rw [hfile] at hst
              simp only [hfile, if_true, List.length_append, ho' hst]
          · refine ⟨off2, ?_, ?_⟩
            · simp only
              rw [List.getElem?_set_ne (fun hh => heq hh.symm)]
              exact ho2
            · intro hst
              simp only
              rw [if_neg]
              · exact ho2' hst
              · intro hf
                have hxy := h.alone y _ l2 l hy hl hf hst
                rw [hxy, hm] at hm2
                cases hm2
                exact heq rfl
        · exact h.outs
        · exact h.alone
        · intro i hi
          obtain ⟨off2, ho2⟩ := h.stds i hi
          by_cases heq : m.out = i
          · subst heq
            rw [ho2] at ho
            simp only [Option.some.injEq, Desc.mk.injEq] at ho
            refine ⟨off + (line g l p).length, ?_⟩
            simp only
            rw [List.getElem?_set_self hlt, ho.1]
          · refine ⟨off2, ?_⟩
            simp only
            rw [List.getElem?_set_ne heq]
            exact ho2

theorem run_good (g : Cfg) (ops : List Op) {s : St} {e t : Env} {os : List Out} (h : Rel g s e)
    (hf : Spec.Logger.follow g (careful g) e ops = some (t, os)) : ∃ s', run g s ops = some (s', os) ∧ Rel g s' t := by
  induction ops generalizing s e t os with
  | nil =>
    simp only [Spec.Logger.follow, Option.some.injEq, Prod.mk.injEq] at hf
    obtain ⟨rfl, rfl⟩ := hf
    exact ⟨s, rfl, h⟩
  | cons op ops ih =>
    simp only [Spec.Logger.follow] at hf
    split at hf
    · rename_i hc
      split at hf
      · cases hf
      · rename_i e' o hs
        split at hf
        · cases hf
        · rename_i t' os' hr
          simp only [Option.some.injEq, Prod.mk.injEq] at hf
          obtain ⟨rfl, rfl⟩ := hf
          obtain ⟨s', h1, h2⟩ := step_good g h op hc hs
          obtain ⟨s'', h3, h4⟩ := ih h2 hr
          exact ⟨s'', by simp only [run, h1, h3], h4⟩
    · cases hf

end Salticidae.Logger
