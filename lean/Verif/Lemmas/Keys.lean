import Verif.Spec.Keys
namespace Salticidae
namespace Keys
open Spec.Keys (Env)

/-- What a program knows of an object. -/
def seen (o : Nat × Kind × Option Nat) : Nat × Kind × Bool := (o.1, o.2.1, o.2.2.isSome)

/-- Every reference is inside exactly one object, no file is open. -/
structure Inv (w : World) (env : Env) : Prop where
  held : w.held.Perm (w.objs.filterMap (·.2.2))
  files : w.files = []
  wiped : w.unwiped = 0
  secret : w.secret = []
  env : env = w.objs.map seen
  nodup : (w.objs.map (·.1)).Nodup
  low : ∀ o ∈ w.objs, o.1 < w.next

theorem inv_init : Inv init [] := ⟨List.Perm.nil, rfl, rfl, rfl, rfl, List.nodup_nil, by simp [init]⟩

theorem inv_empty {w : World} (h : Inv w []) : w.held = [] ∧ w.files = [] ∧ w.unwiped = 0 := by
  have h0 : w.objs = [] := by simpa using h.env.symm
  have := h.held
  rw [h0] at this
  exact ⟨List.Perm.eq_nil (by simpa using this), h.files, h.wiped⟩

theorem find_of_mem : ∀ {l : List (Nat × Kind × Option Nat)} {o}, (l.map (·.1)).Nodup → o ∈ l → l.find? (fun y => y.1 = o.1) = some o
  | a :: l, o, hn, ho => by
    rw [List.map_cons, List.nodup_cons] at hn
    rcases List.mem_cons.1 ho with rfl | ho
    · simp
    · have : a.1 ≠ o.1 := fun e => hn.1 (e ▸ List.mem_map_of_mem ho)
      rw [List.find?_cons_of_neg (by simpa using this)]
      exact find_of_mem hn.2 ho

theorem obj_of_mem {w : World} {env} (h : Inv w env) {o} (ho : o ∈ w.objs) : objAt w o.1 = some o.2 := by
  rw [objAt, find_of_mem h.nodup ho]; rfl

theorem has_ref {w : World} {env} (h : Inv w env) {x k} (hx : Spec.Keys.has env x k = true) : ∃ r, (x, k, some r) ∈ w.objs ∧ objAt w x = some (k, some r) ∧
    refAt w x k = some r := by
  rw [Spec.Keys.has, h.env, List.any_map, List.any_eq_true] at hx
  obtain ⟨⟨y, k', r⟩, ho, h1⟩ := hx
  simp only [Function.comp, seen, Bool.and_eq_true] at h1
  obtain ⟨⟨h0, h1⟩, h2⟩ := h1
  obtain rfl := of_decide_eq_true h0
  obtain rfl := of_decide_eq_true h1
  obtain ⟨r, rfl⟩ := Option.isSome_iff_exists.1 h2
  have := obj_of_mem h ho
  exact ⟨r, ho, this, by simp [refAt, this]⟩

theorem notin_next {w : World} {env} (h : Inv w env) {n : Nat} (hn : w.next ≤ n) : (env.any fun o => decide (o.1 = n)) = false := by
  rw [h.env, List.any_map, List.any_eq_false]
  intro o ho
  have := h.low o ho
  have h2 : o.1 ≠ n := by omega
  exact fun e => h2 (of_decide_eq_true e)

/-- A new object around a new reference. -/
theorem inv_wrap {w : World} {env} (h : Inv w env) (k : Kind) (r : Nat) (n : Nat) (hn : w.next ≤ n) (w' : World)
    (h1 : w'.held.Perm (r :: w.held)) (h2 : w'.files = []) (h3 : w'.objs = w.objs) (h4 : w'.unwiped = 0) (h6 : w'.secret = []) (h5 : w'.next = n) :
    (wrap w' k r).2 = .made n ∧ (env.any fun o => decide (o.1 = n)) = false ∧ Inv (wrap w' k r).1 ((n, k, true) :: env) := by
  refine ⟨by rw [wrap, h5], notin_next h hn, ?_, h2, h4, h6, ?_, ?_, ?_⟩
  · simp only [wrap, h3, List.filterMap_cons]
    exact h1.trans (h.held.cons r)
  · simp only [wrap, h3, h.env, List.map_cons, seen, h5]; rfl
  · simp only [wrap, h3, List.map_cons, List.nodup_cons, h5]
    refine ⟨fun hm => ?_, h.nodup⟩
    obtain ⟨o, ho, e⟩ := List.mem_map.1 hm
    have := h.low o ho
    omega
  · intro o ho
    simp only [wrap, h3, h5] at ho ⊢
    rcases List.mem_cons.1 ho with rfl | ho
    · exact Nat.lt_succ_self _
    · have := h.low o ho; omega

theorem inv_same {w w' : World} {env} (h : Inv w env) (h1 : w'.held.Perm w.held) (h2 : w'.files = []) (h3 : w'.objs = w.objs) (h4 : w'.unwiped = 0)
    (h6 : w'.secret = []) (h5 : w.next ≤ w'.next) : Inv w' env :=
  ⟨by rw [h3]; exact h1.trans h.held, h2, h4, h6, by rw [h3]; exact h.env, by rw [h3]; exact h.nodup,
    fun o ho => Nat.lt_of_lt_of_le (h.low o (h3 ▸ ho)) h5⟩

theorem filterMap_erase : ∀ {l : List (Nat × Kind × Option Nat)} {x k r}, (l.map (·.1)).Nodup → (x, k, some r) ∈ l →
    (l.filterMap (·.2.2)).Perm (r :: ((l.filter fun y => y.1 ≠ x).filterMap (·.2.2)))
  | a :: l, x, k, r, hn, hm => by
    rw [List.map_cons, List.nodup_cons] at hn
    rcases List.mem_cons.1 hm with rfl | hm'
    · have : (l.filter fun y => y.1 ≠ x) = l := by
        rw [List.filter_eq_self]
        intro y hy
        have : y.1 ≠ x := fun e => hn.1 (by rw [← e]; exact List.mem_map_of_mem (f := (·.1)) hy)
        simp [this]
      rw [List.filter_cons_of_neg (by simp), this]
      simp
    · have hne : a.1 ≠ x := fun e => hn.1 (by rw [e]; exact List.mem_map_of_mem (f := (·.1)) hm')
      rw [List.filter_cons_of_pos (by simpa using hne)]
      obtain ⟨y, k', o⟩ := a
      cases o with
      | none => simpa using filterMap_erase hn.2 hm'
      | some q =>
        simp only [List.filterMap_cons]
        exact ((filterMap_erase hn.2 hm').cons q).trans (List.Perm.swap _ _ _)

theorem filter_none : ∀ {l : List (Nat × Kind × Option Nat)} {x k}, (l.map (·.1)).Nodup → (x, k, none) ∈ l →
    ((l.filter fun y => y.1 ≠ x).filterMap (·.2.2)) = l.filterMap (·.2.2)
  | a :: l, x, k, hn, hm => by
    rw [List.map_cons, List.nodup_cons] at hn
    rcases List.mem_cons.1 hm with rfl | hm'
    · have : (l.filter fun y => y.1 ≠ x) = l := by
        rw [List.filter_eq_self]
        intro y hy
        have : y.1 ≠ x := fun e => hn.1 (by rw [← e]; exact List.mem_map_of_mem (f := (·.1)) hy)
        simp [this]
      rw [List.filter_cons_of_neg (by simp), this]
      simp
    · have hne : a.1 ≠ x := fun e => hn.1 (by rw [e]; exact List.mem_map_of_mem (f := (·.1)) hm')
      rw [List.filter_cons_of_pos (by simpa using hne), List.filterMap_cons, List.filterMap_cons, filter_none hn.2 hm']

theorem map_emptied : ∀ {l : List (Nat × Kind × Option Nat)} {x k r}, (l.map (·.1)).Nodup → (x, k, some r) ∈ l →
    (l.filterMap (·.2.2)).Perm (r :: ((l.map fun y => if y.1 = x then (x, k, none) else y).filterMap (·.2.2)))
  | a :: l, x, k, r, hn, hm => by
    rw [List.map_cons, List.nodup_cons] at hn
    rcases List.mem_cons.1 hm with rfl | hm'
    · have : (l.map fun y => if y.1 = x then (x, k, none) else y) = l := by
        refine (List.map_congr_left ?_).trans (List.map_id l)
        intro y hy
        have : y.1 ≠ x := fun e => hn.1 (by rw [← e]; exact List.mem_map_of_mem (f := (·.1)) hy)
        simp [this]
      rw [List.map_cons, this]
      simp
    · have hne : a.1 ≠ x := fun e => hn.1 (by rw [e]; exact List.mem_map_of_mem (f := (·.1)) hm')
      rw [List.map_cons, if_neg hne]
      obtain ⟨y, k', o⟩ := a
      cases o with
      | none => simpa using map_emptied hn.2 hm'
      | some q =>
        simp only [List.filterMap_cons]
        exact ((map_emptied hn.2 hm').cons q).trans (List.Perm.swap _ _ _)

theorem find_env {w : World} {env} (h : Inv w env) {o} (ho : o ∈ w.objs) : (env.find? fun y => decide (y.1 = o.1)) = some (seen o) := by
  rw [h.env, List.find?_map]
  have : (fun y : Nat × Kind × Bool => decide (y.1 = o.1)) ∘ seen = fun y => decide (y.1 = o.1) := rfl
  rw [this, find_of_mem h.nodup ho]; rfl

/-- Every permitted operation outside the list of troubles keeps the accounts. -/
theorem step_ok {w : World} {env : Env} (h : Inv w env) (op : Op) (hp : Spec.Keys.permitted env op = true) (ht : Spec.Keys.trouble op = false) :
    ∃ w' out env', step w op = some (w', out) ∧ Spec.Keys.track env op out = some env' ∧ Inv w' env' := by
  cases op with
  | rsa gen =>
    have hg : gen = true := by simpa [Spec.Keys.trouble] using ht
    subst hg
    have e1 : release (acquire (acquire (acquire w).1).1).1 (w.next + 1) =
        some ⟨(w.next + 2) :: w.next :: w.held, w.files, w.objs, w.secret, w.unwiped, w.next + 3⟩ := by
      simp [release, acquire, List.erase_cons, h.secret]
    have e2 : release ⟨(w.next + 2) :: w.next :: w.held, w.files, w.objs, w.secret, w.unwiped, w.next + 3⟩ (w.next + 2) =
        some ⟨w.next :: w.held, w.files, w.objs, w.secret, w.unwiped, w.next + 3⟩ := by
      simp [release, h.secret]
    obtain ⟨i1, i2, i3⟩ := inv_wrap h .key w.next (w.next + 3) (by omega) ⟨w.next :: w.held, w.files, w.objs, w.secret, w.unwiped, w.next + 3⟩
      (List.Perm.refl _) h.files rfl h.wiped h.secret rfl
    refine ⟨_, .made (w.next + 3), _, ?_, ?_, i3⟩
    · simp only [step]
      change (release (acquire (acquire (acquire w).1).1).1 (w.next + 1)).bind _ = _
      rw [e1, Option.bind_some]
      change (release _ (w.next + 2)).map _ = _
      rw [e2, Option.map_some]
      simp only [if_true, ← i1]; rfl
    · simp only [Spec.Keys.track, Spec.Keys.succeeds, Spec.Keys.makes, if_true, i2, Bool.false_eq_true, if_false]
  | pem k c pw opened encrypted parsed =>
    have hk : ¬ (k ≠ .key ∧ k ≠ .cert) := by
      simp only [Spec.Keys.permitted, Bool.or_eq_true, decide_eq_true_eq] at hp
      rintro ⟨h1, h2⟩; rcases hp with h | h
      · exact h1 h
      · exact h2 h
    simp only [step, if_neg hk]
    simp only [Spec.Keys.trouble, Bool.or_eq_false_iff] at ht
    obtain ⟨⟨t1, t2⟩, t3⟩ := ht
    cases opened with
    | false =>
      simp only [Bool.not_false, if_true, Bool.true_and] at t2 ⊢
      refine ⟨_, _, env, rfl, by simp [Spec.Keys.track, Spec.Keys.succeeds], ?_⟩
      simpa only [dropPassword, t2, Bool.false_eq_true, if_false] using h
    | true =>
      simp only [Bool.true_and, Bool.not_true, Bool.false_eq_true, if_false] at t1 t3 ⊢
      have t3' : (encrypted && pw.any fun n => decide (pemBuf < n + 1)) = false := t3
      rw [t3']
      have t1' : (parsed && !(encrypted && pw.isNone)) = true := by
        revert t1
        cases parsed <;> cases encrypted <;> cases pw <;> simp
      rw [t1']
      simp only [Bool.false_eq_true, if_false, if_true]
      have e1 : closeFile (acquire (openFile w).1).1 w.next = some ⟨(w.next + 1) :: w.held, w.files, w.objs, w.secret, w.unwiped, w.next + 2⟩ := by
        simp [closeFile, acquire, openFile]
      obtain ⟨i1, i2, i3⟩ := inv_wrap h k (w.next + 1) (w.next + 2) (by omega) ⟨(w.next + 1) :: w.held, w.files, w.objs, w.secret, w.unwiped, w.next + 2⟩
        (List.Perm.refl _) h.files rfl h.wiped h.secret rfl
      refine ⟨_, .made (w.next + 2), _, ?_, ?_, i3⟩
      · change (closeFile (acquire (openFile w).1).1 w.next).map _ = _
        rw [e1, Option.map_some]
        simp only [← i1]; rfl
      · simp only [Spec.Keys.track, Spec.Keys.succeeds, Spec.Keys.makes, t1', Bool.true_and, if_true, i2, Bool.false_eq_true, if_false]
  | fromDer k c len parsed =>
    have hk : ¬ (k ≠ .key ∧ k ≠ .cert) := by
      simp only [Spec.Keys.permitted, Bool.or_eq_true, decide_eq_true_eq] at hp
      rintro ⟨h1, h2⟩; rcases hp with h | h
      · exact h1 h
      · exact h2 h
    have hl : ¬ len = 0 := by simpa [Spec.Keys.trouble] using ht
    simp only [step, if_neg hk, if_neg hl]
    cases parsed with
    | true =>
      obtain ⟨i1, i2, i3⟩ := inv_wrap h k w.next (w.next + 1) (by omega) (acquire w).1 (List.Perm.refl _) h.files rfl h.wiped h.secret rfl
      refine ⟨_, .made (w.next + 1), _, ?_, ?_, i3⟩
      · simp only [if_true, ← i1]; rfl
      · simp only [Spec.Keys.track, Spec.Keys.succeeds, Spec.Keys.makes, if_true, i2, Bool.false_eq_true, if_false]
    | false => exact ⟨_, _, env, rfl, by simp [Spec.Keys.track, Spec.Keys.succeeds], h⟩
  | selfSign x =>
    obtain ⟨r, _, _, e1⟩ := has_ref h hp
    obtain ⟨i1, i2, i3⟩ := inv_wrap h .cert w.next (w.next + 1) (by omega) (acquire w).1 (List.Perm.refl _) h.files rfl h.wiped h.secret rfl
    refine ⟨_, .made (w.next + 1), _, ?_, ?_, i3⟩
    · simp only [step, e1, Option.map_some, ← i1]; rfl
    · simp only [Spec.Keys.track, Spec.Keys.succeeds, Spec.Keys.makes, if_true, i2, Bool.false_eq_true, if_false]
  | pubkey c x ok =>
    obtain ⟨r, _, _, e1⟩ := has_ref h hp
    cases ok with
    | true =>
      obtain ⟨i1, i2, i3⟩ := inv_wrap h .key w.next (w.next + 1) (by omega) (acquire w).1 (List.Perm.refl _) h.files rfl h.wiped h.secret rfl
      refine ⟨_, .made (w.next + 1), _, ?_, ?_, i3⟩
      · simp only [step, e1, Option.map_some, if_true, ← i1]; rfl
      · simp only [Spec.Keys.track, Spec.Keys.succeeds, Spec.Keys.makes, if_true, i2, Bool.false_eq_true, if_false]
    | false =>
      have hc : c = false := by simpa [Spec.Keys.trouble] using ht
      subst hc
      exact ⟨_, _, env, by simp only [step, e1, Option.map_some, Bool.false_eq_true, if_false]; rfl, by simp [Spec.Keys.track, Spec.Keys.succeeds, thrown], h⟩
  | der c x ok =>
    have : ∃ k r, objAt w x = some (k, some r) ∧ ¬ (k ≠ .key ∧ k ≠ .cert) := by
      simp only [Spec.Keys.permitted, Bool.or_eq_true] at hp
      rcases hp with hp | hp
      · obtain ⟨r, _, e, _⟩ := has_ref h hp
        exact ⟨_, r, e, by simp⟩
      · obtain ⟨r, _, e, _⟩ := has_ref h hp
        exact ⟨_, r, e, by simp⟩
    obtain ⟨k, r, e1, hk⟩ := this
    cases ok with
    | true =>
      refine ⟨{ w with next := w.next + 1 }, .done, env, ?_, by simp [Spec.Keys.track, Spec.Keys.succeeds, Spec.Keys.makes], ?_⟩
      · simp only [step, e1, if_neg hk, if_true]
        change (release (cleanse (fill (acquire w).1 w.next) w.next) w.next).map _ = _
        simp [release, acquire, fill, cleanse, h.secret]
      · exact inv_same h (List.Perm.refl _) h.files rfl h.wiped h.secret (Nat.le_succ _)
    | false =>
      have hc : c = false := by simpa [Spec.Keys.trouble] using ht
      subst hc
      exact ⟨_, _, env, by simp only [step, e1, if_neg hk, Bool.false_eq_true, if_false]; rfl, by simp [Spec.Keys.track, Spec.Keys.succeeds, thrown], h⟩
  | save x opened written =>
    have : ∃ k r, objAt w x = some (k, some r) ∧ ¬ (k ≠ .key ∧ k ≠ .cert) := by
      simp only [Spec.Keys.permitted, Bool.or_eq_true] at hp
      rcases hp with hp | hp
      · obtain ⟨r, _, e, _⟩ := has_ref h hp
        exact ⟨_, r, e, by simp⟩
      · obtain ⟨r, _, e, _⟩ := has_ref h hp
        exact ⟨_, r, e, by simp⟩
    obtain ⟨k, r, e1, hk⟩ := this
    have ho : opened = true := by simpa [Spec.Keys.trouble] using ht
    subst ho
    refine ⟨{ w with next := w.next + 1 }, (if written then .done else .thrown), env, ?_, ?_, ?_⟩
    · simp only [step, e1, if_neg hk, Bool.not_true, Bool.false_eq_true, if_false]
      change (closeFile (openFile w).1 w.next).map _ = _
      simp [closeFile, openFile]
    · cases written <;> simp [Spec.Keys.track, Spec.Keys.succeeds, Spec.Keys.makes]
    · exact inv_same h (List.Perm.refl _) h.files rfl h.wiped h.secret (Nat.le_succ _)
  | move x =>
    have : ∃ k r, (x, k, some r) ∈ w.objs := by
      simp only [Spec.Keys.permitted, h.env, List.any_map, List.any_eq_true] at hp
      obtain ⟨⟨y, k, r⟩, ho, h1⟩ := hp
      simp only [Function.comp, seen, Bool.and_eq_true] at h1
      obtain ⟨h0, h2⟩ := h1
      obtain rfl := of_decide_eq_true h0
      obtain ⟨r, rfl⟩ := Option.isSome_iff_exists.1 h2
      exact ⟨k, r, ho⟩
    obtain ⟨k, r, ho⟩ := this
    have e1 := obj_of_mem h ho
    have e2 := find_env h ho
    simp only [seen, Option.isSome_some] at e1 e2
    have hN := notin_next h (Nat.le_refl w.next)
    refine ⟨⟨w.held, w.files, (w.next, k, some r) :: w.objs.map fun y => if y.1 = x then (x, k, none) else y, w.secret, w.unwiped, w.next + 1⟩, .made w.next,
      (w.next, k, true) :: env.map fun o => if o.1 = x then (x, o.2.1, false) else o, ?_, ?_, ?_⟩
    · simp only [step, e1, Option.map_some]
    · simp only [Spec.Keys.track, Spec.Keys.succeeds, Spec.Keys.makes, if_true, hN, Bool.false_eq_true, if_false, e2, Option.map_some]
    · refine ⟨?_, h.files, h.wiped, h.secret, ?_, ?_, ?_⟩
      · simp only [List.filterMap_cons]
        exact h.held.trans (map_emptied h.nodup ho)
      · simp only [List.map_cons, seen, Option.isSome_some, List.cons.injEq, true_and, h.env, List.map_map]
        apply List.map_congr_left
        intro y hy
        simp only [Function.comp]
        by_cases hx : y.1 = x
        · have := find_of_mem h.nodup hy
          rw [hx] at this
          have h2 := find_of_mem h.nodup ho
          rw [h2] at this
          cases this
          simp [seen]
        · simp [seen, hx]
      · simp only [List.map_cons, List.map_map, List.nodup_cons]
        have hid : (w.objs.map ((fun o : Nat × Kind × Option Nat => o.1) ∘ fun y => if y.1 = x then (x, k, none) else y)) = w.objs.map (·.1) := by
          apply List.map_congr_left
          intro y _
          simp only [Function.comp]
          split
          · rename_i e; exact e.symm
          · rfl
        rw [hid]
        refine ⟨fun hm => ?_, h.nodup⟩
        obtain ⟨o, ho, e⟩ := List.mem_map.1 hm
        have := h.low o ho
        omega
      · intro o ho
        simp only [List.mem_cons, List.mem_map] at ho ⊢
        rcases ho with rfl | ⟨y, hy, rfl⟩
        · exact Nat.lt_succ_self _
        · have h1 := h.low y hy
          split
          · rename_i e; simp only; omega
          · omega
  | ctxNew =>
    obtain ⟨i1, i2, i3⟩ := inv_wrap h .ctx w.next (w.next + 1) (by omega) (acquire w).1 (List.Perm.refl _) h.files rfl h.wiped h.secret rfl
    refine ⟨_, .made (w.next + 1), _, ?_, ?_, i3⟩
    · simp only [step, ← i1]; rfl
    · simp only [Spec.Keys.track, Spec.Keys.succeeds, Spec.Keys.makes, if_true, i2, Bool.false_eq_true, if_false]
  | use t x ok =>
    simp only [Spec.Keys.permitted, Bool.and_eq_true, Bool.or_eq_true] at hp
    obtain ⟨_, _, _, e0⟩ := has_ref h hp.1
    have : ∃ k r, objAt w x = some (k, some r) ∧ ¬ (k ≠ .key ∧ k ≠ .cert) := by
      rcases hp.2 with hp | hp
      · obtain ⟨r, _, e, _⟩ := has_ref h hp
        exact ⟨_, r, e, by simp⟩
      · obtain ⟨r, _, e, _⟩ := has_ref h hp
        exact ⟨_, r, e, by simp⟩
    obtain ⟨k, r, e1, hk⟩ := this
    refine ⟨w, (if ok then .done else .thrown), env, ?_, ?_, h⟩
    · simp only [step, e0, Option.bind_some, e1, if_neg hk]
    · cases ok <;> simp [Spec.Keys.track, Spec.Keys.succeeds, Spec.Keys.makes]
  | tlsNew t ok =>
    obtain ⟨_, _, _, e0⟩ := has_ref h hp
    have ho : ok = true := by simpa [Spec.Keys.trouble] using ht
    subst ho
    obtain ⟨i1, i2, i3⟩ := inv_wrap h .tls w.next (w.next + 1) (by omega) (acquire w).1 (List.Perm.refl _) h.files rfl h.wiped h.secret rfl
    refine ⟨_, .made (w.next + 1), _, ?_, ?_, i3⟩
    · simp only [step, e0, Option.map_some, if_true, ← i1]; rfl
    · simp only [Spec.Keys.track, Spec.Keys.succeeds, Spec.Keys.makes, if_true, i2, Bool.false_eq_true, if_false]
  | peerCert t present =>
    obtain ⟨_, _, _, e0⟩ := has_ref h hp
    cases present with
    | true =>
      obtain ⟨i1, i2, i3⟩ := inv_wrap h .cert w.next (w.next + 1) (by omega) (acquire w).1 (List.Perm.refl _) h.files rfl h.wiped h.secret rfl
      refine ⟨_, .made (w.next + 1), _, ?_, ?_, i3⟩
      · simp only [step, e0, Option.map_some, if_true, ← i1]; rfl
      · simp only [Spec.Keys.track, Spec.Keys.succeeds, Spec.Keys.makes, if_true, i2, Bool.false_eq_true, if_false]
    | false => exact ⟨_, _, env, by simp only [step, e0, Option.map_some]; rfl, by simp [Spec.Keys.track, Spec.Keys.succeeds], h⟩
  | destroy x =>
    have : ∃ o, o ∈ w.objs ∧ o.1 = x := by
      simp only [Spec.Keys.permitted, h.env, List.any_map, List.any_eq_true] at hp
      obtain ⟨o, ho, h1⟩ := hp
      exact ⟨o, ho, of_decide_eq_true h1⟩
    obtain ⟨⟨y, k, r⟩, ho, e⟩ := this
    obtain rfl : y = x := e
    have e1 := obj_of_mem h ho
    simp only at e1
    have hfilter : ∀ (held : List Nat), held.Perm ((w.objs.filter fun o => o.1 ≠ y).filterMap (·.2.2)) →
        Inv ⟨held, w.files, w.objs.filter fun o => o.1 ≠ y, w.secret, w.unwiped, w.next⟩ (env.filter fun o => o.1 ≠ y) := by
      intro held hperm
      refine ⟨hperm, h.files, h.wiped, h.secret, ?_, ?_, ?_⟩
      · rw [h.env, List.filter_map]; rfl
      · exact List.Nodup.sublist (List.Sublist.map _ List.filter_sublist) h.nodup
      · intro o ho; exact h.low o (List.mem_filter.1 ho).1
    cases r with
    | none =>
      refine ⟨_, .done, _, ?_, ?_, hfilter w.held ?_⟩
      · simp only [step, e1, Option.bind_some]
      · simp only [Spec.Keys.track, Spec.Keys.succeeds, Spec.Keys.makes, if_true]
      · rw [filter_none h.nodup ho]; exact h.held
    | some r =>
      have hp2 := h.held.trans (filterMap_erase h.nodup ho)
      have hm : r ∈ w.held := hp2.mem_iff.2 (by simp)
      refine ⟨_, .done, _, ?_, ?_, hfilter (w.held.erase r) ?_⟩
      · simp only [step, e1, Option.bind_some, release, if_pos hm, Option.map_some, h.secret, List.erase_nil, List.not_mem_nil, if_false]
      · simp only [Spec.Keys.track, Spec.Keys.succeeds, Spec.Keys.makes, if_true]
      · have := hp2.erase r
        rwa [List.erase_cons_head] at this

theorem run_ok : ∀ (ops : List Op) (w : World) (env : Env), Inv w env →
    match Spec.Keys.follow Spec.Keys.trouble env ops (run w ops).1 with
    | .wrong => False
    | .excused => True
    | .good env' => ∃ w', (run w ops).2 = some w' ∧ Inv w' env'
  | [], w, env, h => ⟨w, rfl, h⟩
  | op :: ops, w, env, h => by
    by_cases hx : (!Spec.Keys.permitted env op || Spec.Keys.trouble op) = true
    · simp only [Spec.Keys.follow, hx, if_true]
    · have hx' : Spec.Keys.permitted env op = true ∧ Spec.Keys.trouble op = false := by
        simpa [Bool.or_eq_true] using hx
      obtain ⟨w', out, env', e1, e2, e3⟩ := step_ok h op hx'.1 hx'.2
      have := run_ok ops w' env' e3
      simp only [Spec.Keys.follow, run, e1, hx, Bool.false_eq_true, if_false, e2]
      exact this

end Keys
end Salticidae
