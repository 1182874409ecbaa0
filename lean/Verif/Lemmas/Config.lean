import Verif.Spec.Config
import Verif.Lemmas.Util
namespace Salticidae
namespace Conf
open Util Spec.Conf

variable {D : Type}

/-! trimming and lines -/

theorem strip_isTrim (s : Str) : Spec.IsTrim blanks s (strip s) := by
  unfold strip
  have hb : ∀ c, blank c = true ↔ c ∈ blanks := by
    intro c; simp [blank, blanks]; grind
  generalize hu : s.dropWhile blank = u
  refine ⟨s.takeWhile blank, (u.reverse.takeWhile blank).reverse, ?_, ?_, ?_, ?_, ?_⟩
  · rw [List.append_assoc, ← List.reverse_append, List.takeWhile_append_dropWhile, List.reverse_reverse,
      ← hu, List.takeWhile_append_dropWhile]
  · intro c hc
    have := List.all_takeWhile (p := blank) (l := s)
    rw [List.all_eq_true] at this
    exact (hb c).1 (this c hc)
  · intro c hc
    have := List.all_takeWhile (p := blank) (l := u.reverse)
    rw [List.all_eq_true] at this
    exact (hb c).1 (this c (by simpa using hc))
  · intro c hc
    rw [← hb]
    -- the head of the result is the head of u unless everything was dropped
    have h1 : (u.reverse.dropWhile blank).reverse <+: u := by
      have : u.reverse.dropWhile blank <:+ u.reverse := List.dropWhile_suffix _
      have := List.reverse_prefix.2 this
      simpa using this
    obtain ⟨t, ht⟩ := h1
    have h2 : u.head? = some c := by
      rw [← ht]
      cases h3 : (u.reverse.dropWhile blank).reverse with
      | nil => rw [h3] at hc; simp at hc
      | cons a l => rw [h3] at hc; simpa using hc
    have h3 := List.head?_dropWhile_not blank s
    rw [hu, h2] at h3
    simpa using h3
  · intro c hc
    rw [← hb]
    have h3 := List.head?_dropWhile_not blank u.reverse
    rw [List.getLast?_reverse] at hc
    rw [hc] at h3
    simpa using h3

theorem trim_eq_strip (s : Str) : trim s blanks = strip s :=
  isTrim_unique (trim_isTrim s blanks) (strip_isTrim s)

theorem strip_newline (s : Str) : strip (s ++ ['\n']) = strip s := by
  obtain ⟨l, r, h1, h2, h3, h4, h5⟩ := strip_isTrim s
  refine isTrim_unique (strip_isTrim (s ++ ['\n'])) ⟨l, r ++ ['\n'], ?_, h2, ?_, h4, h5⟩
  · conv => lhs; rw [h1]
    simp
  · intro c hc
    rcases List.mem_append.1 hc with hc | hc
    · exact h3 c hc
    · simp at hc; subst hc; decide

theorem takeWhile_len_lt {line : Str} {x : Char} (h : x ∈ line) :
    line.dropWhile (· ≠ x) = x :: line.drop ((line.takeWhile (· ≠ x)).length + 1) := by
  induction line with
  | nil => cases h
  | cons c l ih =>
    by_cases hc : c = x
    · subst hc; simp
    · have h' : x ∈ l := by
        rcases List.mem_cons.1 h with h | h
        · exact absurd h.symm hc
        · exact h
      simpa [hc] using ih h'

theorem find_eq {line : Str} : ∀ {pos : Nat}, find line ['='] 0 = some pos →
    '=' ∈ line ∧ line.take pos = line.takeWhile (· ≠ '=') ∧
      line.drop (pos + 1) = (line.dropWhile (· ≠ '=')).drop 1 := by
  intro pos h
  obtain ⟨_, h2, ⟨t, h3⟩, h4⟩ := find_some h
  have hpos : pos < line.length := by simp at h2; omega
  have hget : line[pos] = '=' := by
    have : line.drop pos = line[pos] :: line.drop (pos + 1) := List.drop_eq_getElem_cons hpos
    rw [this] at h3
    have h3 : '=' :: t = line[pos] :: line.drop (pos + 1) := h3
    injection h3 with h3; exact h3.symm
  have hmem : '=' ∈ line := by rw [← hget]; exact List.getElem_mem _
  have hlen : (line.takeWhile (· ≠ '=')).length = pos := by
    have hge : ¬ pos < (line.takeWhile (· ≠ '=')).length := by
      intro hlt
      have hp : line.takeWhile (· ≠ '=') <+: line := List.takeWhile_prefix _
      have hm : (line.takeWhile (· ≠ '='))[pos] ∈ line.takeWhile (· ≠ '=') := List.getElem_mem _
      have ha := List.all_takeWhile (p := (· ≠ '=')) (l := line)
      rw [List.all_eq_true] at ha
      have := ha _ hm
      rw [hp.getElem hlt, hget] at this
      simp at this
    have hle : ¬ (line.takeWhile (· ≠ '=')).length < pos := by
      intro hlt
      apply h4 _ (Nat.zero_le _) hlt
      have h6 : line.drop (line.takeWhile (· ≠ '=')).length = line.dropWhile (· ≠ '=') := by
        have h7 : line.takeWhile (· ≠ '=') ++ line.dropWhile (· ≠ '=') = line :=
          List.takeWhile_append_dropWhile
        have h8 := congrArg (List.drop (line.takeWhile (· ≠ '=')).length) h7
        rw [List.drop_left] at h8
        exact h8.symm
      rw [h6, takeWhile_len_lt hmem]
      exact ⟨_, rfl⟩
    omega
  refine ⟨hmem, ?_, ?_⟩
  · have hp : line.takeWhile (· ≠ '=') <+: line := List.takeWhile_prefix _
    rw [List.prefix_iff_eq_take] at hp
    rw [hlen] at hp; exact hp.symm
  · rw [takeWhile_len_lt hmem, hlen]; simp

theorem find_eq_none {line : Str} (h : find line ['='] 0 = none) : '=' ∉ line := by
  intro hmem
  obtain ⟨a, b, rfl⟩ := List.append_of_mem hmem
  exact find_none h a.length (Nat.zero_le _) (by simp) ⟨b, by simp⟩

theorem keyVal_newline (l : Str) : keyVal (l ++ ['\n']) = keyVal l := by
  unfold keyVal
  by_cases h : '=' ∈ l
  · rw [if_pos (by simp [h]), if_pos h]
    have h1 : (l ++ ['\n']).takeWhile (· ≠ '=') = l.takeWhile (· ≠ '=') := by
      rw [List.takeWhile_append, if_neg]
      intro he
      have := takeWhile_len_lt h
      have h9 : l.takeWhile (· ≠ '=') ++ l.dropWhile (· ≠ '=') = l := List.takeWhile_append_dropWhile
      have h10 := congrArg List.length h9
      rw [List.length_append, he, this] at h10
      simp at h10
    have h2 : (l ++ ['\n']).dropWhile (· ≠ '=') = l.dropWhile (· ≠ '=') ++ ['\n'] := by
      rw [List.dropWhile_append, if_neg]
      rw [takeWhile_len_lt h]; simp
    rw [h1, h2, takeWhile_len_lt h]
    simp [strip_newline]
  · rw [if_neg (by simp [h]), if_neg h]

/-! the state of the parser -/

/-- `c` is the table `decls` after the assignments `out`. -/
structure St (env : Env D) (decls : List (Opt D)) (out : List (Nat × Str)) (c : Config D) : Prop where
  map : ∀ k, lookup c.map k = who decls k
  len : c.opts.length = decls.length
  opt : ∀ (i : Nat) (o : Opt D), decls[i]? = some o → ∃ o' : Opt D, c.opts[i]? = some o' ∧ o'.name = o.name ∧
    o'.short = o.short ∧ o'.action = o.action ∧ Holds env o.val (valuesOf i out) o'.val

theorem valuesOf_append (i : Nat) (a b : List (Nat × Str)) :
    valuesOf i (a ++ b) = valuesOf i a ++ valuesOf i b := by
  simp [valuesOf]

theorem valuesOf_self (i : Nat) (v : Str) : valuesOf i [(i, v)] = [v] := by simp [valuesOf]
theorem valuesOf_other {i j : Nat} (h : j ≠ i) (v : Str) : valuesOf i [(j, v)] = [] := by
  simp [valuesOf, h]

theorem Expands.append {decls : List (Opt D)} {fs} {a b x y : List (Nat × Str)}
    (h : Expands decls fs a x) (g : Expands decls fs b y) : Expands decls fs (a ++ b) (x ++ y) := by
  induction h with
  | nil => exact g
  | plain h1 _ ih => exact .plain h1 ih
  | missing h1 h2 _ ih => exact .missing h1 h2 ih
  | file h1 h2 h3 _ _ ih =>
    have := Expands.file (v := _) h1 h2 h3 ih
    simp only [List.cons_append, List.append_assoc] at this ⊢
    exact this

/-- One value stored. -/
theorem st_set {env : Env D} {decls : List (Opt D)} {out c} (hst : St env decls out c) {i : Nat} {o o' : Opt D}
    (ho : decls[i]? = some o) (ho' : c.opts[i]? = some o') (hn : o'.name = o.name)
    (hs : o'.short = o.short) (ha : o'.action = o.action) {arg : Str} {w : Val D}
    (hw : Holds env o.val (valuesOf i out ++ [arg]) w) :
    St env decls (out ++ [(i, arg)]) (c.set i o' w) := by
  have hi : i < c.opts.length := by
    rw [List.getElem?_eq_some_iff] at ho'; exact ho'.1
  refine ⟨hst.map, by simp [Config.set, hst.len], ?_⟩
  intro j p hp
  by_cases hij : i = j
  · subst hij
    rw [ho] at hp; cases hp
    refine ⟨{ o' with val := w }, ?_, hn, hs, ha, ?_⟩
    · simp [Config.set, hi]
    · rw [valuesOf_append, valuesOf_self]; exact hw
  · obtain ⟨p', h1, h2⟩ := hst.opt j p hp
    refine ⟨p', ?_, h2.1, h2.2.1, h2.2.2.1, ?_⟩
    · simp [Config.set, hij, h1]
    · rw [valuesOf_append, valuesOf_other hij]; simpa using h2.2.2.2

/-- What is known about `load` at one nesting depth. -/
def LoadOk (env : Env D) (decls : List (Opt D)) (ld : Config D → Str → Res (Config D)) : Prop :=
  ∀ c out fname c', St env decls out c → ld c fname = .ok c' →
    (env.fs fname = none ∧ c' = c) ∨
    ∃ content new, env.fs fname = some content ∧ Expands decls env.fs (assigns decls content) new ∧
      St env decls (out ++ new) c'

theorem st_conf {env : Env D} {decls : List (Opt D)} {out c} (hst : St env decls out c) {i : Nat} {o : Opt D}
    (ho : decls[i]? = some o) (hv : o.val = .conf) (arg : Str) : St env decls (out ++ [(i, arg)]) c := by
  refine ⟨hst.map, hst.len, ?_⟩
  intro j p hp
  obtain ⟨p', h1, h2, h3, h4, h5⟩ := hst.opt j p hp
  refine ⟨p', h1, h2, h3, h4, ?_⟩
  by_cases hij : i = j
  · subst hij
    rw [ho] at hp; cases hp
    rw [hv] at h5 ⊢; exact h5
  · rw [valuesOf_append, valuesOf_other hij]; simpa using h5

/-- The kind of a value. -/
def Val.kind : Val D → Nat
  | .flag _ => 0 | .str _ => 1 | .int _ => 2 | .dbl _ => 3 | .vec _ => 4 | .conf => 5

theorem holds_kind {env : Env D} {d v : Val D} {vs : List Str} (h : Holds env d vs v) : d.kind = v.kind := by
  cases d <;> simp only [Holds] at h
  case int =>
    split at h
    · subst h; rfl
    · obtain ⟨m, _, rfl⟩ := h; rfl
  case dbl =>
    split at h
    · subst h; rfl
    · obtain ⟨m, _, rfl⟩ := h; rfl
  all_goals (subst h; rfl)

theorem update_ok {env : Env D} {decls : List (Opt D)} {ld} (hld : LoadOk env decls ld) {out c c'} {i : Nat} {arg : Str}
    (hst : St env decls out c) (h : update env ld c i arg = .ok c') :
    ∃ new, Expands decls env.fs [(i, arg)] new ∧ St env decls (out ++ new) c' := by
  unfold update at h
  rcases ho' : c.opts[i]? with _ | o'
  · rw [ho'] at h; simp at h
  · rw [ho'] at h
    simp only at h
    have hi : i < c.opts.length := by
      rw [List.getElem?_eq_some_iff] at ho'; exact ho'.1
    have hi' : i < decls.length := by rw [← hst.len]; exact hi
    obtain ⟨o'', h1, h2, h3, h4, h5⟩ := hst.opt i decls[i] (by simp [hi'])
    rw [ho'] at h1; cases h1
    have hd : decls[i]? = some decls[i] := by simp [hi']
    generalize decls[i] = o at hd h2 h3 h4 h5
    have notConf : o.val ≠ .conf → ¬ isConf decls i := by
      rintro hne ⟨p, hp, hv⟩
      rw [hd] at hp; cases hp; exact hne hv
    -- store a value
    have fin : ∀ w, o.val ≠ .conf → Holds env o.val (valuesOf i out ++ [arg]) w → c' = c.set i o' w →
        ∃ new, Expands decls env.fs [(i, arg)] new ∧ St env decls (out ++ new) c' := by
      intro w hne hw hc
      subst hc
      exact ⟨[(i, arg)], .plain (notConf hne) .nil, st_set hst hd ho' h2 h3 h4 hw⟩
    have hk := holds_kind h5
    split at h
    · -- flag
      rename_i b _ hval
      rw [hval] at hk
      cases hov : o.val <;> rw [hov] at hk fin <;> simp only [Val.kind, reduceCtorEq, Nat.reduceEqDiff] at hk
      injection h with h
      exact fin (.flag true) (by simp) (by simp [Holds]) h.symm
    · rename_i s _ hval
      rw [hval] at hk
      cases hov : o.val <;> rw [hov] at hk fin <;> simp only [Val.kind, reduceCtorEq, Nat.reduceEqDiff] at hk
      injection h with h
      exact fin (.str arg) (by simp) (by simp [Holds]) h.symm
    · rename_i s _ hval
      rw [hval] at hk
      split at h
      · rename_i n hn
        cases hov : o.val <;> rw [hov] at hk fin <;> simp only [Val.kind, reduceCtorEq, Nat.reduceEqDiff] at hk
        injection h with h
        exact fin (.int n) (by simp) (by simp [Holds, hn]) h.symm
      · cases h
    · rename_i s _ hval
      rw [hval] at hk
      split at h
      · rename_i n hn
        cases hov : o.val <;> rw [hov] at hk fin <;> simp only [Val.kind, reduceCtorEq, Nat.reduceEqDiff] at hk
        injection h with h
        exact fin (.dbl n) (by simp) (by simp [Holds, hn]) h.symm
      · cases h
    · rename_i _ hval
      rw [hval] at hk
      have hov : o.val = .conf := by
        cases hov : o.val <;> rw [hov] at hk <;> simp only [Val.kind, reduceCtorEq, Nat.reduceEqDiff] at hk
      have hst' := st_conf hst hd hov arg
      rcases hld c _ arg c' hst' h with ⟨g1, rfl⟩ | ⟨content, new, g1, g2, g3⟩
      · exact ⟨[(i, arg)], .missing ⟨o, hd, hov⟩ g1 .nil, hst'⟩
      · refine ⟨(i, arg) :: new ++ [], .file ⟨o, hd, hov⟩ g1 g2 .nil, ?_⟩
        simpa using g3
    · rename_i l _ hval
      rw [hval] at hk h5
      cases hov : o.val <;> rw [hov] at hk fin h5 <;> simp only [Val.kind, reduceCtorEq, Nat.reduceEqDiff] at hk
      rename_i l0
      have h5 : l = l0 ++ valuesOf i out := by simpa [Holds] using h5
      injection h with h
      exact fin (.vec (l ++ [arg])) (by simp) (by simp [Holds, h5]) h.symm
    · cases h

theorem filter_takeWhile_self {p : Char → Bool} {l : Str} (h : ∀ c ∈ l, p c = true) : l.takeWhile p = l := by
  induction l with
  | nil => rfl
  | cons c l ih =>
    simp [h c (by simp), ih (fun c hc => h c (by simp [hc]))]

theorem lines_cons {s : Str} (h : s ≠ []) :
    lines s = s.takeWhile (· ≠ '\n') :: lines (s.drop ((s.takeWhile (· ≠ '\n')).length + 1)) := by
  rw [lines]; simp [h]

/-- A chunk that is not too long is a line, with or without its newline. -/
theorem chunk_line {n : Nat} {s : Str} (hs : s ≠ []) (hne : (s.take (fgetsLen n s)).length ≠ n - 1) :
    fgetsLen n s = (s.takeWhile (· ≠ '\n')).length + 1 ∧
    (s.take (fgetsLen n s) = s.takeWhile (· ≠ '\n') ∨ s.take (fgetsLen n s) = s.takeWhile (· ≠ '\n') ++ ['\n']) := by
  have hle : (s.takeWhile (· ≠ '\n')).length ≤ s.length := (List.takeWhile_prefix _).length_le
  have hp : s.takeWhile (· ≠ '\n') <+: s := List.takeWhile_prefix _
  have hlen : fgetsLen n s = (s.takeWhile (· ≠ '\n')).length + 1 ∨
      ((fgetsLen n s = n - 1) ∧ n - 1 < (s.takeWhile (· ≠ '\n')).length + 1) := by
    unfold fgetsLen; omega
  rcases hlen with hlen | ⟨hlen, hlt⟩
  · refine ⟨hlen, ?_⟩
    by_cases hm : '\n' ∈ s
    · right
      have h9 : s.takeWhile (· ≠ '\n') ++ s.dropWhile (· ≠ '\n') = s := List.takeWhile_append_dropWhile
      rw [takeWhile_len_lt hm] at h9
      rw [hlen]
      have h10 := congrArg (List.take ((s.takeWhile (· ≠ '\n')).length + 1)) h9
      rw [← h10, List.take_append, List.take_of_length_le (by omega)]
      simp
    · left
      have : s.takeWhile (· ≠ '\n') = s := filter_takeWhile_self (by
        intro c hc; simp; rintro rfl; exact hm hc)
      rw [hlen, this]
      exact List.take_of_length_le (by omega)
  · exfalso
    apply hne
    rw [List.length_take, hlen]; omega

theorem loadLine_ok {env : Env D} {decls : List (Opt D)} {ld} (hld : LoadOk env decls ld) {out c c'} {buff : Str}
    (hnul : '\x00' ∉ buff) (hst : St env decls out c) (h : loadLine env ld c buff = .ok c') :
    buff.length ≠ env.buffSize - 1 ∧
    ∃ new, Expands decls env.fs (lineAssign decls buff).toList new ∧ St env decls (out ++ new) c' := by
  unfold loadLine at h
  unfold lineAssign
  have hline : buff.takeWhile (· ≠ '\x00') = buff := filter_takeWhile_self (by
    intro c hc; simp; rintro rfl; exact hnul hc)
  simp only [hline] at h
  split at h
  · cases h
  · rename_i hlen
    refine ⟨hlen, ?_⟩
    rcases hf : find buff ['='] 0 with _ | pos
    · rw [hf] at h
      simp only at h
      injection h with h
      subst h
      have : keyVal buff = none := by
        unfold keyVal; rw [if_neg (find_eq_none hf)]
      rw [this]
      exact ⟨[], .nil, by simpa using hst⟩
    · rw [hf] at h
      simp only at h
      obtain ⟨h1, h2, h3⟩ := find_eq hf
      have hkv : keyVal buff = some (trim (buff.take pos) blanks, trim (buff.drop (pos + 1)) blanks) := by
        unfold keyVal
        rw [if_pos h1, trim_eq_strip, trim_eq_strip, h2, h3]
      rw [hkv]
      simp only
      rw [← hst.map]
      split at h
      · rename_i hk
        injection h with h; subst h
        rw [hk]
        exact ⟨[], .nil, by simpa using hst⟩
      · rename_i i hk
        rw [hk]
        exact update_ok hld hst h

theorem loop_lines {env : Env D} {decls : List (Opt D)} {ld} (hld : LoadOk env decls ld) :
    ∀ (fuel : Nat) (s : Str) (out : List (Nat × Str)) (c c' : Config D), s.length ≤ fuel → '\x00' ∉ s →
      St env decls out c →
      loop (loadLine env ld) c (chunks env.buffSize fuel s) = .ok c' →
      ∃ new, Expands decls env.fs (assigns decls s) new ∧ St env decls (out ++ new) c' := by
  intro fuel
  induction fuel with
  | zero =>
    intro s out c c' hlen hnul hst h
    have : s = [] := List.length_eq_zero_iff.1 (by omega)
    subst this
    simp only [chunks, loop] at h
    injection h with h; subst h
    exact ⟨[], by unfold assigns lines; simp; exact .nil, by simpa using hst⟩
  | succ f ih =>
    intro s out c c' hlen hnul hst h
    by_cases hs : s = []
    · subst hs
      simp only [chunks, if_true, loop] at h
      injection h with h; subst h
      exact ⟨[], by unfold assigns lines; simp; exact .nil, by simpa using hst⟩
    · simp only [chunks, if_neg hs, loop] at h
      split at h
      · rename_i c1 h1
        obtain ⟨g1, new, g2, g3⟩ := loadLine_ok hld (fun hm => hnul (List.mem_of_mem_take hm)) hst h1
        obtain ⟨e1, e2⟩ := chunk_line hs g1
        have hkv : lineAssign decls (s.take (fgetsLen env.buffSize s)) = lineAssign decls (s.takeWhile (· ≠ '\n')) := by
          rcases e2 with e2 | e2
          · rw [e2]
          · rw [e2]; unfold lineAssign; rw [keyVal_newline]
        rw [hkv] at g2
        have hsl := List.length_pos_iff.2 hs
        obtain ⟨new2, g4, g5⟩ := ih (s.drop (fgetsLen env.buffSize s)) _ c1 c'
          (by rw [List.length_drop]; omega) (fun hm => hnul (List.mem_of_mem_drop hm)) g3 h
        rw [e1] at g4
        refine ⟨new ++ new2, ?_, by rw [← List.append_assoc]; exact g5⟩
        have := Expands.append g2 g4
        unfold assigns at this ⊢
        rw [lines_cons hs, List.filterMap_cons]
        revert this
        cases lineAssign decls (s.takeWhile (· ≠ '\n')) <;> (intro this; simpa using this)
      · cases h
      · cases h

theorem load_ok {env : Env D} {decls : List (Opt D)} (hnul : ∀ f s, env.fs f = some s → '\x00' ∉ s) (fuel : Nat) :
    LoadOk env decls (load env fuel) := by
  induction fuel with
  | zero => intro c out fname c' _ h; simp [load] at h
  | succ f ih =>
    intro c out fname c' hst h
    unfold load at h
    split at h
    · rename_i hf
      injection h with h
      exact .inl ⟨hf, h.symm⟩
    · rename_i s hf
      right
      obtain ⟨new, h1, h2⟩ := loop_lines ih _ s out c c' (Nat.le_refl _) (hnul _ _ hf) hst h
      exact ⟨s, new, hf, h1, h2⟩

theorem loop_args {env : Env D} {decls : List (Opt D)} (hnul : ∀ f s, env.fs f = some s → '\x00' ∉ s) (fuel : Nat) :
    ∀ (args : List Arg) (out : List (Nat × Str)) (c c' : Config D), St env decls out c →
      loop (parseArg env fuel) c args = .ok c' →
      (∀ a ∈ args, (argAssign decls a).isSome) ∧
      ∃ new, Expands decls env.fs (args.filterMap (argAssign decls)) new ∧ St env decls (out ++ new) c' := by
  intro args
  induction args with
  | nil =>
    intro out c c' hst h
    simp only [loop] at h
    injection h with h; subst h
    exact ⟨by simp, [], .nil, by simpa using hst⟩
  | cons a args ih =>
    intro out c c' hst h
    simp only [loop] at h
    split at h
    · rename_i c1 h1
      have key : ∃ p, argAssign decls a = some p ∧ ∃ new, Expands decls env.fs [p] new ∧ St env decls (out ++ new) c1 := by
        cases a with
        | bad => simp [parseArg] at h1
        | long i v => exact ⟨(i, v), rfl, update_ok (load_ok hnul fuel) hst h1⟩
        | short ch v =>
          simp only [parseArg] at h1
          rw [hst.map] at h1
          split at h1
          · cases h1
          · rename_i i hi
            exact ⟨(i, v), by simp [argAssign, hi], update_ok (load_ok hnul fuel) hst h1⟩
      obtain ⟨p, hp, new, g1, g2⟩ := key
      obtain ⟨g3, new2, g4, g5⟩ := ih _ c1 c' g2 h
      refine ⟨?_, new ++ new2, ?_, by rw [← List.append_assoc]; exact g5⟩
      · intro b hb
        rcases List.mem_cons.1 hb with rfl | hb
        · rw [hp]; rfl
        · exact g3 b hb
      · rw [List.filterMap_cons, hp]
        exact Expands.append g1 g4
    · cases h
    · cases h

/-! registration -/

theorem lookup_append_none {m : List (Str × Nat)} {k : Str} (h : lookup m k = none) (e : Str × Nat) (k' : Str) :
    lookup (m ++ [e]) k' = if lookup m k' = none then (if e.1 = k' then some e.2 else none) else lookup m k' := by
  unfold lookup
  rw [List.find?_append]
  cases List.find? (fun e => decide (e.1 = k')) m <;> simp

theorem lookup_insert (m : List (Str × Nat)) (k : Str) (i : Nat) (k' : Str) :
    lookup (insert m k i) k' = if (lookup m k').isSome then lookup m k' else if k = k' then some i else none := by
  unfold insert
  split
  · rename_i h
    by_cases hk : k = k'
    · subst hk; rw [if_pos h]
    · rw [if_neg hk]
      cases lookup m k' <;> simp
  · rename_i h
    rw [lookup_append_none (k := k) (by simpa using h)]
    cases lookup m k' <;> simp

/-- The table is what registration says: first come, first served. -/
def MapOk (decls : List (Opt D)) (m : List (Str × Nat)) : Prop := ∀ k, lookup m k = who decls k

theorem who_append (decls : List (Opt D)) (o : Opt D) (k : Str) :
    who (decls ++ [o]) k = if (who decls k).isSome then who decls k
      else if Names o k then some decls.length else none := by
  unfold who
  rw [List.findIdx?_append]
  cases List.findIdx? (fun o => Names o k) decls <;> simp [List.findIdx?_cons]

theorem addOpt_ok {c c' : Config D} {o : Opt D} (hm : MapOk c.opts c.map) (h : addOpt c o = .ok c') :
    lookup c.map o.name = none ∧ MapOk c'.opts c'.map ∧ c'.opts = c.opts ++ [o] ∧ c'.fname = c.fname := by
  unfold addOpt at h
  split at h
  · cases h
  · rename_i hn
    injection h with h
    subst h
    refine ⟨by simpa using hn, ?_, rfl, rfl⟩
    intro k
    simp only
    rw [who_append, ← hm]
    cases hs : o.short with
    | none =>
      simp only [lookup_insert, Names, hs]
      simp
    | some ch =>
      simp only [lookup_insert, Names, hs]
      cases lookup c.map k <;> simp
      by_cases h1 : o.name = k <;> by_cases h2 : [ch] = k <;> simp [h1, h2]

theorem addOpts_ok : ∀ {os : List (Opt D)} {c c' : Config D}, MapOk c.opts c.map → addOpts c os = .ok c' →
    MapOk c'.opts c'.map ∧ c'.opts = c.opts ++ os ∧ c'.fname = c.fname := by
  intro os
  induction os with
  | nil => intro c c' hm h; simp only [addOpts] at h; injection h with h; subst h; exact ⟨hm, by simp, rfl⟩
  | cons o os ih =>
    intro c c' hm h
    simp only [addOpts] at h
    split at h
    · cases h
    · rename_i c1 h1
      obtain ⟨_, h2, h3, h4⟩ := addOpt_ok hm h1
      obtain ⟨h5, h6, h7⟩ := ih h2 h
      exact ⟨h5, by rw [h6, h3]; simp, by rw [h7, h4]⟩

theorem mapOk_empty (fname : Str) : MapOk ({ (Config.empty : Config D) with fname := fname }).opts
    ({ (Config.empty : Config D) with fname := fname }).map := by
  intro k; rfl

theorem holds_nil (env : Env D) (v : Val D) : Holds env v [] v := by
  cases v <;> simp [Holds]

theorem st_init {env : Env D} {fname : Str} {decls : List (Opt D)} {c : Config D}
    (h : addOpts { (Config.empty : Config D) with fname := fname } decls = .ok c) : St env decls [] c := by
  obtain ⟨h1, h2, _⟩ := addOpts_ok (mapOk_empty fname) h
  have h2 : c.opts = decls := by simpa [Config.empty] using h2
  refine ⟨by intro k; rw [h1, h2], by rw [h2], ?_⟩
  intro i o ho
  exact ⟨o, by rw [h2]; exact ho, rfl, rfl, rfl, holds_nil _ _⟩

/-! no divergence -/

theorem update_nodiv {env : Env D} {decls : List (Opt D)} {ld} {out c} {i : Nat} {arg : Str}
    (hst : St env decls out c) (hld : isConf decls i → ld c arg ≠ .diverge) :
    update env ld c i arg ≠ .diverge := by
  intro h
  unfold update at h
  rcases ho' : c.opts[i]? with _ | o'
  · rw [ho'] at h; simp at h
  · rw [ho'] at h
    simp only at h
    have hi : i < c.opts.length := by
      rw [List.getElem?_eq_some_iff] at ho'; exact ho'.1
    have hi' : i < decls.length := by rw [← hst.len]; exact hi
    obtain ⟨o'', h1, h2, h3, h4, h5⟩ := hst.opt i decls[i] (by simp [hi'])
    rw [ho'] at h1; cases h1
    have hd : decls[i]? = some decls[i] := by simp [hi']
    generalize decls[i] = o at hd h2 h3 h4 h5
    have hk := holds_kind h5
    split at h
    · cases h
    · cases h
    · split at h <;> cases h
    · split at h <;> cases h
    · rename_i _ hval
      rw [hval] at hk
      have hov : o.val = .conf := by
        cases hov : o.val <;> rw [hov] at hk <;> simp only [Val.kind, reduceCtorEq, Nat.reduceEqDiff] at hk
      exact hld ⟨o, hd, hov⟩ h
    · cases h
    · cases h

theorem loadLine_nodiv {env : Env D} {decls : List (Opt D)} {ld} {out c} {buff : Str}
    (hnul : '\x00' ∉ buff) (hst : St env decls out c)
    (hld : ∀ i v, buff.length ≠ env.buffSize - 1 → lineAssign decls buff = some (i, v) → isConf decls i → ld c v ≠ .diverge) :
    loadLine env ld c buff ≠ .diverge := by
  intro h
  unfold loadLine at h
  have hline : buff.takeWhile (· ≠ '\x00') = buff := filter_takeWhile_self (by
    intro c hc; simp; rintro rfl; exact hnul hc)
  simp only [hline] at h
  split at h
  · cases h
  · rename_i hlen
    rcases hf : find buff ['='] 0 with _ | pos
    · rw [hf] at h; simp at h
    · rw [hf] at h
      simp only at h
      obtain ⟨h1, h2, h3⟩ := find_eq hf
      have hkv : keyVal buff = some (trim (buff.take pos) blanks, trim (buff.drop (pos + 1)) blanks) := by
        unfold keyVal
        rw [if_pos h1, trim_eq_strip, trim_eq_strip, h2, h3]
      split at h
      · cases h
      · rename_i i hk
        refine update_nodiv hst ?_ h
        refine hld i _ hlen ?_
        rw [lineAssign, hkv]
        simp only
        rw [← hst.map, hk]; rfl

theorem loop_lines_nodiv {env : Env D} {decls : List (Opt D)} {ld} (hok : LoadOk env decls ld) :
    ∀ (fuel : Nat) (s : Str) (out : List (Nat × Str)) (c : Config D), s.length ≤ fuel → '\x00' ∉ s →
      St env decls out c →
      (∀ i v, (i, v) ∈ assigns decls s → isConf decls i → ∀ c out, St env decls out c → ld c v ≠ .diverge) →
      loop (loadLine env ld) c (chunks env.buffSize fuel s) ≠ .diverge := by
  intro fuel
  induction fuel with
  | zero => intro s out c _ _ _ _ h; simp [chunks, loop] at h
  | succ f ih =>
    intro s out c hlen hnul hst hld h
    by_cases hs : s = []
    · subst hs; simp [chunks, loop] at h
    · simp only [chunks, if_neg hs, loop] at h
      have hnul' : '\x00' ∉ s.take (fgetsLen env.buffSize s) := fun hm => hnul (List.mem_of_mem_take hm)
      have hkv : (s.take (fgetsLen env.buffSize s)).length ≠ env.buffSize - 1 →
          lineAssign decls (s.take (fgetsLen env.buffSize s)) = lineAssign decls (s.takeWhile (· ≠ '\n')) := by
        intro g1
        obtain ⟨e1, e2⟩ := chunk_line hs g1
        rcases e2 with e2 | e2
        · rw [e2]
        · rw [e2]; unfold lineAssign; rw [keyVal_newline]
      split at h
      · rename_i c1 h1
        obtain ⟨g1, new, g2, g3⟩ := loadLine_ok hok hnul' hst h1
        obtain ⟨e1, e2⟩ := chunk_line hs g1
        have hsl := List.length_pos_iff.2 hs
        refine ih (s.drop (fgetsLen env.buffSize s)) _ c1
          (by rw [List.length_drop]; omega) (fun hm => hnul (List.mem_of_mem_drop hm)) g3 ?_ h
        intro i v hm
        refine hld i v ?_
        rw [e1] at hm
        unfold assigns at hm ⊢
        rw [lines_cons hs, List.filterMap_cons]
        split
        · exact hm
        · exact List.mem_cons_of_mem _ hm
      · cases h
      · rename_i h1
        refine loadLine_nodiv hnul' hst ?_ h1
        intro i v g1 hl hc
        refine hld i v ?_ hc _ _ hst
        rw [hkv g1] at hl
        unfold assigns
        rw [lines_cons hs, List.filterMap_cons, hl]
        simp

theorem load_nodiv {env : Env D} {decls : List (Opt D)} (hnul : ∀ f s, env.fs f = some s → '\x00' ∉ s)
    {rank : Str → Nat}
    (hr : ∀ f s i v, env.fs f = some s → (i, v) ∈ assigns decls s → isConf decls i → rank v < rank f) :
    ∀ (fuel : Nat) (f : Str), rank f < fuel → ∀ c out, St env decls out c → load env fuel c f ≠ .diverge := by
  intro fuel
  induction fuel with
  | zero => intro f hf; omega
  | succ n ih =>
    intro f hf c out hst h
    unfold load at h
    split at h
    · cases h
    · rename_i s hs
      refine loop_lines_nodiv (load_ok hnul n) _ s out c (Nat.le_refl _) (hnul _ _ hs) hst ?_ h
      intro i v hm hc c out hst
      have := hr f s i v hs hm hc
      exact ih v (by omega) c out hst

theorem loop_args_nodiv {env : Env D} {decls : List (Opt D)} (hnul : ∀ f s, env.fs f = some s → '\x00' ∉ s)
    {fuel : Nat} (hld : ∀ f c out, St env decls out c → load env fuel c f ≠ .diverge) :
    ∀ (args : List Arg) (out : List (Nat × Str)) (c : Config D), St env decls out c →
      loop (parseArg env fuel) c args ≠ .diverge := by
  intro args
  induction args with
  | nil => intro out c _ h; simp [loop] at h
  | cons a args ih =>
    intro out c hst h
    simp only [loop] at h
    split at h
    · rename_i c1 h1
      obtain ⟨_, new, _, g⟩ := loop_args (decls := decls) hnul fuel [a] out c c1 hst (by simp [loop, h1])
      exact ih _ c1 g h
    · cases h
    · rename_i h1
      cases a with
      | bad => simp [parseArg] at h1
      | long i v => exact update_nodiv hst (fun _ => hld _ _ _ hst) h1
      | short ch v =>
        simp only [parseArg] at h1
        split at h1
        · cases h1
        · exact update_nodiv hst (fun _ => hld _ _ _ hst) h1

end Conf
end Salticidae
