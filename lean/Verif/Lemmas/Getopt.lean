import Verif.Spec.Getopt
import Verif.Lemmas.Config
/-!
Lemmas for C131.
-/
namespace Salticidae
namespace Getopt
open Util (Str)
open Conf (Opt Config Env Res Arg Err)
open Spec.Getopt

theorem cut_take {c : Char} : ∀ {x : Str} (v : Str), c ∉ x → (x ++ c :: v).takeWhile (fun d => d ≠ c) = x
  | [], v, _ => by simp
  | a :: x, v, h => by
    have : a ≠ c := fun e => h (by simp [e])
    have ih := cut_take (c := c) (x := x) v (fun hh => h (List.mem_cons_of_mem _ hh))
    simp [this] at ih ⊢
    exact ih

theorem cut_drop {c : Char} : ∀ {x : Str} (v : Str), c ∉ x → (x ++ c :: v).dropWhile (fun d => d ≠ c) = c :: v
  | [], v, _ => by simp
  | a :: x, v, h => by
    have : a ≠ c := fun e => h (by simp [e])
    have ih := cut_drop (c := c) (x := x) v (fun hh => h (List.mem_cons_of_mem _ hh))
    simp [this] at ih ⊢
    exact ih

theorem all_take {c : Char} : ∀ {x : Str}, c ∉ x → x.takeWhile (fun d => d ≠ c) = x
  | [], _ => rfl
  | a :: x, h => by
    have : a ≠ c := fun e => h (by simp [e])
    have ih := all_take (c := c) (x := x) (fun hh => h (List.mem_cons_of_mem _ hh))
    simp [this] at ih ⊢
    exact ih

theorem all_drop {c : Char} : ∀ {x : Str}, c ∉ x → x.dropWhile (fun d => d ≠ c) = []
  | [], _ => rfl
  | a :: x, h => by
    have : a ≠ c := fun e => h (by simp [e])
    have ih := all_drop (c := c) (x := x) (fun hh => h (List.mem_cons_of_mem _ hh))
    simp [this] at ih ⊢
    exact ih

/-- No short name is a colon: neither is the first character of shortopts. -/
theorem shortopts_head : ∀ {os : List LOpt}, (∀ o ∈ os, ∀ c, o.short = some c → c ≠ ':') → (shortopts os).head? ≠ some ':'
  | [], _ => by simp [shortopts]
  | o :: os, h => by
    have ih := shortopts_head (os := os) (fun p hp => h p (by simp [hp]))
    simp only [shortopts, List.flatMap_cons, LOpt.piece] at ih ⊢
    cases hs : o.short with
    | none => simpa using ih
    | some c =>
      have := h o (by simp) c hs
      cases o.arg <;> simp [this]

/-- getopt finds short options. -/
theorem findShort_ok {c : Char} (hc : c ≠ ':' ∧ c ≠ ';') : ∀ {os : List LOpt}, (∀ o ∈ os, ∀ c, o.short = some c → c ≠ ':') →
    findShort (shortopts os) c = (os.find? (fun o => o.short = some c)).map (fun o => if o.arg then .required else .no)
  | [], _ => by simp [shortopts, findShort]
  | o :: os, h => by
    have ih := findShort_ok hc (os := os) (fun p hp => h p (by simp [hp]))
    have hh := shortopts_head (os := os) (fun p hp => h p (by simp [hp]))
    have e : shortopts (o :: os) = o.piece ++ shortopts os := by simp [shortopts]
    rw [e, LOpt.piece]
    simp only [findShort, hc.1, hc.2, or_self, if_false] at ih ⊢
    have hcc : ':' ≠ c := fun x => hc.1 x.symm
    cases hs : o.short with
    | none => simpa [hs] using ih
    | some d =>
      by_cases hd : d = c
      · subst hd
        simp only [List.find?_cons, hs, decide_true, Option.map_some]
        cases ha : o.arg
        · simp only [Bool.false_eq_true, if_false, List.cons_append, List.nil_append]
          rw [List.dropWhile_cons_of_neg (by simp)]
          cases hx : shortopts os with
          | nil => rfl
          | cons y ys =>
            rw [hx] at hh
            simp only [List.head?_cons, ne_eq, Option.some.injEq] at hh
            split
            · rename_i heq; cases heq
            · rename_i heq; cases heq; exact absurd rfl hh
            · rename_i heq; cases heq; exact absurd rfl hh
            · rfl
        · simp only [if_true, List.cons_append, List.nil_append]
          rw [List.dropWhile_cons_of_neg (by simp)]
          cases hx : shortopts os with
          | nil => rfl
          | cons y ys =>
            rw [hx] at hh
            simp only [List.head?_cons, ne_eq, Option.some.injEq] at hh
            split
            · rename_i heq; cases heq
            · rename_i heq; cases heq; exact absurd rfl hh
            · rfl
            · rename_i h1 h2 heq; cases heq; exact (h2 _ rfl).elim
      · have : (decide (o.short = some c)) = false := by simp [hs, hd]
        simp only [List.find?_cons, this]
        rw [← ih]
        cases o.arg
        · simp [hd]
        · simp [hd, hcc]

theorem findIdx_nodup {os : List LOpt} (hn : (os.map (·.name)).Nodup) {i : Nat} {o : LOpt} (h : os[i]? = some o) : os.findIdx? (fun p => p.name = o.name) = some i := by
  rw [List.findIdx?_eq_some_iff_getElem]
  obtain ⟨hi, he⟩ := List.getElem?_eq_some_iff.1 h
  refine ⟨hi, by simp [he], fun j hj => ?_⟩
  simp only [decide_eq_true_eq]
  intro e
  have h1 : (os.map (·.name))[j]'(by simp; omega) = (os.map (·.name))[i]'(by simpa using hi) := by simp [e, he]
  exact List.pairwise_iff_getElem.1 hn j i _ _ hj h1

variable {D : Type}

theorem short_ok {decls : List (Opt D)} (hW : Writable decls) (hD : Spec.Conf.Distinct decls) {c : Char} {o : Opt D} (ho : o ∈ decls) (hc : o.short = some c) :
    findShort (shortopts (decls.map LOpt.of)) c = some (if o.action ≠ .switchOn then .required else .no) := by
  have hcc := (hW o ho).2.2 c hc
  rw [findShort_ok ⟨fun e => hcc (by simp [e]), fun e => hcc (by simp [e])⟩]
  · cases hf : (decls.map LOpt.of).find? (fun o => o.short = some c) with
    | none =>
      have := List.find?_eq_none.1 hf (LOpt.of o) (List.mem_map_of_mem ho)
      simp [LOpt.of, hc] at this
    | some q =>
      obtain ⟨p, hp, rfl⟩ := List.mem_map.1 (List.mem_of_find?_eq_some hf)
      have hq := List.find?_some hf
      simp only [LOpt.of, decide_eq_true_eq] at hq
      obtain ⟨i, hi⟩ := List.mem_iff_getElem?.1 ho
      obtain ⟨j, hj⟩ := List.mem_iff_getElem?.1 hp
      have := hD i j o p [c] hi hj (by simp [Spec.Conf.Names, hc]) (by simp [Spec.Conf.Names, of_decide_eq_true hq])
      subst this
      rw [hi] at hj; cases hj
      simp [LOpt.of]
  · intro q hq d hd
    obtain ⟨p, hp, rfl⟩ := List.mem_map.1 hq
    intro e
    exact (hW p hp).2.2 d hd (by simp [e])

theorem scan_long {o : Order} {s : Str} {os : List LOpt} {n : Nat} {body : Str} {as : List Str} (h : body ≠ []) :
    scan o s os (n + 1) (('-' :: '-' :: body) :: as) = ((long os s body as).1 ++ (scan o s os n (long os s body as).2).1, (scan o s os n (long os s body as).2).2) := by
  cases body with
  | nil => exact absurd rfl h
  | cons b bs => simp [scan]

theorem scan_short {o : Order} {s : Str} {os : List LOpt} {n : Nat} {c : Char} {cs : Str} {as : List Str} (h : c ≠ '-') :
    scan o s os (n + 1) (('-' :: c :: cs) :: as) =
      ((cluster s (c :: cs) as).1 ++ (scan o s os n (cluster s (c :: cs) as).2).1, (scan o s os n (cluster s (c :: cs) as).2).2) := by
  simp [scan, h]

theorem scan_plain {s : Str} {os : List LOpt} {n : Nat} {a : Str} {as : List Str} (h : a = ['-'] ∨ a.head? ≠ some '-') :
    scan .permute s os (n + 1) (a :: as) = ((scan .permute s os n as).1, a :: (scan .permute s os n as).2) := by
  rcases h with rfl | h
  · simp [scan]
  · cases a with
    | nil => simp [scan]
    | cons b bs =>
      have : b ≠ '-' := by simpa using h
      simp [scan, this]

theorem cluster_flags {s : Str} {as : List Str} : ∀ {cs : List Char}, (∀ c ∈ cs, findShort s c = some .no) → cluster s cs as = (cs.map (fun c => (.char c, none)), as)
  | [], _ => rfl
  | c :: cs, h => by
    have ih := cluster_flags (s := s) (as := as) (cs := cs) (fun d hd => h d (by simp [hd]))
    simp [cluster, h c (by simp), ih]

/-- What getopt returns for an item. -/
def events : Item → List Event
  | .longSet i v _ => [(.long i, some v)]
  | .longFlag i => [(.long i, none)]
  | .shortSet c v _ => [(.char c, some v)]
  | .shortFlags cs => cs.map (fun c => (.char c, none))
  | .plain _ => []

theorem findLong_ok {decls : List (Opt D)} (hn : (decls.map (·.name)).Nodup) {i : Nat} {o : Opt D} (h : decls[i]? = some o) :
    findLong (decls.map LOpt.of) o.name = some i := by
  have := findIdx_nodup (os := decls.map LOpt.of) (i := i) (o := LOpt.of o) (by simpa [Function.comp_def, LOpt.of] using hn) (by simp [h])
  have e : (LOpt.of o).name = o.name := rfl
  rw [e] at this
  simp only [findLong, this]

theorem scan_item {decls : List (Opt D)} (hW : Writable decls) (hD : Spec.Conf.Distinct decls) (hn : (decls.map (·.name)).Nodup) {it : Item} (hf : Fits decls it) (n : Nat) (rest : List Str) :
    scan .permute (shortopts (decls.map LOpt.of)) (decls.map LOpt.of) (n + 1) (write decls it ++ rest) =
      (events it ++ (scan .permute (shortopts (decls.map LOpt.of)) (decls.map LOpt.of) n rest).1,
        leaves it ++ (scan .permute (shortopts (decls.map LOpt.of)) (decls.map LOpt.of) n rest).2) := by
  cases it with
  | longSet i v eq =>
    obtain ⟨o, ho, ha⟩ := hf
    obtain ⟨h1, h2, _⟩ := hW o (List.mem_of_getElem? ho)
    have hl := findLong_ok hn ho
    have e : nameOf decls i = o.name := by simp [nameOf, ho]
    cases eq
    · simp only [write, e, List.cons_append, List.nil_append]
      rw [scan_long h1]
      simp only [long, all_take h2, all_drop h2, hl]
      simp [ho, LOpt.of, ha, events, leaves]
    · simp only [write, e, List.cons_append, List.nil_append]
      rw [scan_long (by simp)]
      simp only [long, cut_take v h2, cut_drop v h2, hl]
      simp [ho, LOpt.of, ha, events, leaves]
  | longFlag i =>
    obtain ⟨o, ho, ha⟩ := hf
    obtain ⟨h1, h2, _⟩ := hW o (List.mem_of_getElem? ho)
    have hl := findLong_ok hn ho
    have e : nameOf decls i = o.name := by simp [nameOf, ho]
    simp only [write, e, List.cons_append, List.nil_append]
    rw [scan_long h1]
    simp only [long, all_take h2, all_drop h2, hl]
    simp [ho, LOpt.of, ha, events, leaves]
  | shortSet c v joined =>
    obtain ⟨⟨o, ho, hs, ha⟩, hv⟩ := hf
    have hc := (hW o ho).2.2 c hs
    have hk := short_ok hW hD ho hs
    rw [if_pos ha] at hk
    have hd : c ≠ '-' := fun e => hc (by simp [e])
    cases joined
    · simp only [write, List.cons_append, List.nil_append]
      rw [scan_short hd]
      simp [cluster, hk, events, leaves]
    · simp only [write, List.cons_append, List.nil_append]
      rw [scan_short hd]
      simp [cluster, hk, events, leaves, hv rfl]
  | shortFlags cs =>
    obtain ⟨h0, h1⟩ := hf
    have hk : ∀ c ∈ cs, findShort (shortopts (decls.map LOpt.of)) c = some .no := by
      intro c hc
      obtain ⟨o, ho, hs, ha⟩ := h1 c hc
      have hk := short_ok hW hD ho hs
      rwa [if_neg (by simp [ha])] at hk
    cases cs with
    | nil => exact absurd rfl h0
    | cons c cs =>
      obtain ⟨o, ho, hs, ha⟩ := h1 c (by simp)
      have hd : c ≠ '-' := fun e => (hW o ho).2.2 c hs (by simp [e])
      simp only [write, List.cons_append, List.nil_append]
      rw [scan_short hd, cluster_flags hk]
      simp [events, leaves]
  | plain s =>
    simp only [write, List.cons_append, List.nil_append]
    rw [scan_plain hf]
    simp [events, leaves]

theorem scan_nil {o : Order} {s : Str} {os : List LOpt} : ∀ n, scan o s os n [] = ([], [])
  | 0 => rfl
  | _ + 1 => rfl

theorem scan_line {decls : List (Opt D)} (hW : Writable decls) (hD : Spec.Conf.Distinct decls) (hn : (decls.map (·.name)).Nodup) (tail : Option (List Str)) :
    ∀ (items : List Item), (∀ it ∈ items, Fits decls it) → ∀ n, items.length < n →
    scan .permute (shortopts (decls.map LOpt.of)) (decls.map LOpt.of) n
        (items.flatMap (write decls) ++ match tail with | some t => ['-', '-'] :: t | none => []) =
      (items.flatMap events, items.flatMap leaves ++ tail.getD [])
  | [], _, n, h => by
    cases n with
    | zero => simp at h
    | succ n => cases tail <;> simp [scan]
  | it :: items, hf, n, h => by
    cases n with
    | zero => simp at h
    | succ n =>
      have ih := scan_line hW hD hn tail items (fun q hq => hf q (by simp [hq])) n (by simpa using h)
      rw [List.flatMap_cons, List.append_assoc, scan_item hW hD hn (hf it (by simp)), ih]
      simp

theorem order_ok {decls : List (Opt D)} (hW : Writable decls) : order false (shortopts (decls.map LOpt.of)) = (.permute, shortopts (decls.map LOpt.of)) := by
  have h : ∀ c, (shortopts (decls.map LOpt.of)).head? = some c → c ≠ '-' ∧ c ≠ '+' := by
    induction decls with
    | nil => simp [shortopts]
    | cons o os ih =>
      have ih := ih (fun p hp => hW p (by simp [hp]))
      have hw := (hW o (by simp)).2.2
      intro c hc
      simp only [shortopts, List.map_cons, List.flatMap_cons, LOpt.piece] at ih hc
      cases hs : o.short with
      | none => exact ih c (by simpa [LOpt.of, hs] using hc)
      | some d =>
        have hd := hw d hs
        have : d = c := by
          simp only [LOpt.of, hs] at hc
          split at hc <;> simpa using hc
        subst this
        exact ⟨fun e => hd (by simp [e]), fun e => hd (by simp [e])⟩
  cases hx : shortopts (decls.map LOpt.of) with
  | nil => rfl
  | cons a s =>
    have := h a (by simp [hx])
    unfold order
    split
    · rename_i heq; cases heq; exact absurd rfl this.1
    · rename_i heq; cases heq; exact absurd rfl this.2
    · rfl

theorem length_le {decls : List (Opt D)} : ∀ (items : List Item), items.length ≤ (items.flatMap (write decls)).length
  | [] => by simp
  | it :: items => by
    have := length_le (decls := decls) items
    have h1 : 1 ≤ (write decls it).length := by
      cases it with
      | longSet i v eq => cases eq <;> simp [write]
      | shortSet i v eq => cases eq <;> simp [write]
      | _ => simp [write]
    simp only [List.flatMap_cons, List.length_append, List.length_cons]
    omega

theorem leaves_le {decls : List (Opt D)} : ∀ (items : List Item), (items.flatMap leaves).length ≤ (items.flatMap (write decls)).length
  | [] => by simp
  | it :: items => by
    have ih := leaves_le (decls := decls) items
    have : (leaves it).length ≤ (write decls it).length := by cases it <;> simp [leaves, write]
    simp only [List.flatMap_cons, List.length_append]
    omega

theorem filter_one {i : Nat} : ∀ {n : Nat}, i < n → (List.range n).filter (fun k => decide (k = i)) = [i]
  | 0, h => by omega
  | n + 1, h => by
    rw [List.range_succ, List.filter_append]
    by_cases e : i = n
    · subst e
      have : (List.range i).filter (fun k => decide (k = i)) = [] := by
        rw [List.filter_eq_nil_iff]; intro a ha; have := List.mem_range.1 ha; simp; omega
      simp [this]
    · rw [filter_one (n := n) (by omega)]
      have : ¬ n = i := fun h => e h.symm
      simp [this]

theorem loop_some {env : Env D} {fuel : Nat} : ∀ (l : List Arg) (c : Config D), Conf.loop (eventStep env fuel) c (l.map some) = Conf.loop (Conf.parseArg env fuel) c l
  | [], _ => rfl
  | a :: l, c => by
    simp only [List.map_cons, Conf.loop, eventStep]
    cases Conf.parseArg env fuel c a with
    | ok c' => exact loop_some l c'
    | throw e => rfl
    | diverge => rfl

theorem toArg_ok {decls : List (Opt D)} (hW : Writable decls) {c : Config D} (ho : c.opts = decls)
    (hl : ∀ (i : Nat) (o : Opt D) (ch : Char), decls[i]? = some o → o.short = some ch → Conf.lookup c.map [ch] = some i) {it : Item} (hf : Fits decls it) :
    (events it).map (toArg c) = (sets it).map some := by
  cases it with
  | longSet i v eq => simp [events, sets, toArg]
  | longFlag i =>
    obtain ⟨o, h1, ha⟩ := hf
    simp [events, sets, toArg, ho, h1, ha]
  | shortSet d v joined =>
    obtain ⟨⟨o, h1, hs, ha⟩, hv⟩ := hf
    have hd : d ≠ '?' := fun e => (hW o h1).2.2 d hs (by simp [e])
    simp [events, sets, toArg, hd]
  | shortFlags cs =>
    obtain ⟨_, h1⟩ := hf
    simp only [events, sets, List.map_map]
    apply List.map_congr_left
    intro d hd
    obtain ⟨o, h2, hs, ha⟩ := h1 d hd
    have hq : d ≠ '?' := fun e => (hW o h2).2.2 d hs (by simp [e])
    obtain ⟨i, hi⟩ := List.mem_iff_getElem?.1 h2
    simp [toArg, hq, hl i o d hi hs, ho, hi, ha]
  | plain s => rfl

theorem toArgs_ok {decls : List (Opt D)} (hW : Writable decls) {c : Config D} (ho : c.opts = decls)
    (hl : ∀ (i : Nat) (o : Opt D) (ch : Char), decls[i]? = some o → o.short = some ch → Conf.lookup c.map [ch] = some i) :
    ∀ (items : List Item), (∀ it ∈ items, Fits decls it) → (items.flatMap events).map (toArg c) = (items.flatMap sets).map some
  | [], _ => rfl
  | it :: items, hf => by
    have ih := toArgs_ok hW ho hl items (fun q hq => hf q (by simp [hq]))
    simp only [List.flatMap_cons, List.map_append, ih, toArg_ok hW ho hl (hf it (by simp))]

end Getopt
end Salticidae
