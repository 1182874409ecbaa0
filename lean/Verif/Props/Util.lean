import Verif.Lemmas.Config
/-
Property theorems for the utilities (C64-C69, C74, C75).
-/
namespace Salticidae
open Util

/-- C64, full statement: `split` returns for every string and delimiter, and for a non-empty
delimiter the result is the splitting of the string. -/
def C64_statement : Prop :=
  ∀ s d : Str, ∃ fuel ps, split s d fuel = some ps ∧ (d ≠ [] → Spec.IsSplit d s ps)

/-- C64 fails: with an empty delimiter `split` never returns. -/
theorem C64_violated : ¬ C64_statement := by
  intro h
  obtain ⟨fuel, ps, h1, _⟩ := h [] []
  rw [split, splitLoop_empty [] fuel 0 [] (by simp)] at h1
  cases h1

/-- C64, the rest: for every non-empty delimiter the call returns after finitely many iterations,
and the pieces are the left-to-right splitting of the string, which is unique. -/
theorem C64_split_partial (s d : Str) (hd : d ≠ []) :
    ∃ ps, (∀ fuel, s.length < fuel → split s d fuel = some ps) ∧ Spec.IsSplit d s ps ∧
      ∀ qs, Spec.IsSplit d s qs → qs = ps := by
  obtain ⟨ps, h1, h2⟩ := splitLoop_spec (s := s) hd s.length 0 [] (by omega) (by omega)
  exact ⟨ps, fun fuel hf => by simpa [split] using h1 fuel hf, by simpa using h2,
    fun qs hq => split_unique hd hq (by simpa using h2)⟩

example : split "a::b:::".toList "::".toList 10 = some ["a".toList, "b".toList, ":".toList] := by decide

/-- C65.  `trim` removes exactly the leading and trailing blanks, this determines its result, it is
idempotent, and `trim_all` is `trim` on every element. -/
theorem C65_trim (s space : Str) :
    Spec.IsTrim space s (trim s space) ∧ (∀ t, Spec.IsTrim space s t → t = trim s space) ∧
    trim (trim s space) space = trim s space ∧
    ∀ ss : List Str, (trimAll ss).length = ss.length ∧
      ∀ (i : Nat) (a t : Str), ss[i]? = some a → (trimAll ss)[i]? = some t → Spec.IsTrim ['\t', '\r', '\n', ' '] a t := by
  refine ⟨trim_isTrim s space, fun t ht => isTrim_unique ht (trim_isTrim s space), ?_, ?_⟩
  · obtain ⟨l, r, h1, h2, h3, h4, h5⟩ := trim_isTrim s space
    exact isTrim_unique (trim_isTrim _ space) ⟨[], [], by simp, by simp, by simp, h4, h5⟩
  · intro ss
    refine ⟨by simp [trimAll], ?_⟩
    intro i a t ha ht
    simp [trimAll, ha] at ht
    subst ht
    exact trim_isTrim a blanks

example : trim " \t a b\r\n".toList blanks = "a b".toList := by decide

section Config
open Conf Spec.Conf

/-- C66.  For every option table (registered without error), every set of text files and every
command line: if parsing returns, the assignments made are those of the initial configuration file
followed by the command line, with each named configuration file spliced in where it is named; a
flag is on iff it was on by default or was mentioned, a value option holds the last value assigned
to it or its default, a list option its default followed by all the values in order; and nothing
else about the table changes. -/
theorem C66_config_precedence {D : Type} (env : Env D) (fname : Str) (decls : List (Opt D)) (c c' : Config D)
    (fuel : Nat) (args : List Arg)
    (hreg : addOpts { (Config.empty : Config D) with fname := fname } decls = .ok c)
    (htext : ∀ f s, env.fs f = some s → '\x00' ∉ s)
    (hparse : parse env fuel c args = .ok c') :
    ∃ cmd out, args.map (argAssign decls) = cmd.map some ∧
      Expands decls env.fs ((match env.fs fname with
        | some s => assigns decls s
        | none => []) ++ cmd) out ∧
      c'.opts.length = decls.length ∧
      ∀ (i : Nat) (o : Opt D), decls[i]? = some o → ∃ o' : Opt D, c'.opts[i]? = some o' ∧
        o'.name = o.name ∧ o'.short = o.short ∧ o'.action = o.action ∧
        Holds env o.val (valuesOf i out) o'.val := by
  have hst : St env decls [] c := st_init hreg
  have hfn : c.fname = fname := (addOpts_ok (mapOk_empty fname) hreg).2.2
  unfold parse at hparse
  rw [hfn] at hparse
  rcases h1 : load env fuel c fname with _ | e | c1
  · rw [h1] at hparse; cases hparse
  · rw [h1] at hparse; cases hparse
  · rw [h1] at hparse
    have key : ∃ new, Expands decls env.fs (match env.fs fname with
        | some s => assigns decls s
        | none => []) new ∧ St env decls new c1 := by
      rcases load_ok htext fuel c [] fname c1 hst h1 with ⟨g1, g2⟩ | ⟨s, new, g1, g2, g3⟩
      · rw [g1, g2]; exact ⟨[], .nil, hst⟩
      · rw [g1]; exact ⟨new, g2, by simpa using g3⟩
    obtain ⟨new, k1, k2⟩ := key
    obtain ⟨k3, new2, k4, k5⟩ := loop_args htext fuel args _ c1 c' k2 hparse
    refine ⟨args.filterMap (argAssign decls), new ++ new2, ?_, Expands.append k1 k4, k5.len, k5.opt⟩
    clear hparse k4 k5
    induction args with
    | nil => rfl
    | cons a args ih =>
      have ha := k3 a (by simp)
      obtain ⟨p, hp⟩ := Option.isSome_iff_exists.1 ha
      rw [List.map_cons, List.filterMap_cons, hp, ih (fun b hb => k3 b (by simp [hb]))]
      rfl

/-- C66, as programs use it: a Config created with the name of a configuration file has the option `conf` (`-c`) that names further
files, and reads that file first. -/
theorem C66_config_create {D : Type} (env : Env D) (fname : Str) (decls : List (Opt D)) (c0 c c' : Config D)
    (fuel : Nat) (args : List Arg) (hnew : Config.create fname = .ok c0) (hreg : addOpts c0 decls = .ok c)
    (htext : ∀ f s, env.fs f = some s → '\x00' ∉ s)
    (hparse : parse env fuel c args = .ok c') :
    let all := (⟨"conf".toList, some 'c', .setVal, .conf⟩ : Opt D) :: decls
    ∃ cmd out, args.map (argAssign all) = cmd.map some ∧
      Expands all env.fs ((match env.fs fname with
        | some s => assigns all s
        | none => []) ++ cmd) out ∧
      c'.opts.length = all.length ∧
      ∀ (i : Nat) (o : Opt D), all[i]? = some o → ∃ o' : Opt D, c'.opts[i]? = some o' ∧
        o'.name = o.name ∧ o'.short = o.short ∧ o'.action = o.action ∧
        Holds env o.val (valuesOf i out) o'.val := by
  refine C66_config_precedence env fname _ c c' fuel args ?_ htext hparse
  simp only [addOpts]
  unfold Config.create at hnew
  rw [hnew]
  exact hreg

/-- Creation succeeds. -/
example (fname : Str) : ∃ c : Config Nat, Config.create fname = .ok c := ⟨_, rfl⟩

/-- A table, two files and a command line for the examples. -/
def exDecls : List (Opt Nat) :=
  [⟨"conf".toList, some 'c', .setVal, .conf⟩, ⟨"name".toList, some 'n', .setVal, .str "x".toList⟩,
   ⟨"peer".toList, none, .append, .vec []⟩, ⟨"v".toList, none, .switchOn, .flag false⟩]

def exEnv : Env Nat where
  stoi := fun _ => .error .optvalInvalid
  stod := fun _ => .error .optvalInvalid
  fs := fun f => if f = "a".toList then some "peer = p1\nconf = b\n v=\n".toList
    else if f = "b".toList then some "name=y\npeer=p2\nzz=1".toList else none
  buffSize := 64

/-- The table after parsing in the example below. -/
def exTable : List (Opt Nat) :=
  [⟨"conf".toList, some 'c', .setVal, .conf⟩, ⟨"name".toList, some 'n', .setVal, .str "q".toList⟩,
   ⟨"peer".toList, none, .append, .vec ["p1".toList, "p2".toList, "p3".toList]⟩,
   ⟨"v".toList, none, .switchOn, .flag true⟩]

/-- The registered table of the example. -/
def exConfig : Config Nat :=
  ⟨[("conf".toList, 0), ("c".toList, 0), ("name".toList, 1), ("n".toList, 1), ("peer".toList, 2), ("v".toList, 3)],
    exDecls, "a".toList⟩

example : addOpts { (Config.empty : Config Nat) with fname := "a".toList } exDecls = .ok exConfig := rfl

example : (match Config.create "a".toList with
    | .ok c0 => addOpts c0 exDecls.tail
    | .error e => .error e) = .ok exConfig := rfl

example : parse exEnv 3 exConfig [.long 2 "p3".toList, .short 'n' "q".toList] =
    .ok { exConfig with opts := exTable } := by decide

/-- C67, full statement: a sequence of registrations succeeds only if no name is registered twice,
and then every option is found under its own name and under its own short name. -/
def C67_statement : Prop :=
  ∀ (fname : Str) (decls : List (Opt Unit)) (c : Config Unit),
    addOpts { (Config.empty : Config Unit) with fname := fname } decls = .ok c →
    (decls.map (·.name)).Nodup ∧
    ∀ (i : Nat) (o : Opt Unit), decls[i]? = some o →
      lookup c.map o.name = some i ∧ ∀ ch, o.short = some ch → lookup c.map [ch] = some i

/-- C67 fails: the second of two options with the same short name is registered without complaint
but its short name means the first. -/
theorem C67_violated : ¬ C67_statement := by
  intro h
  have h1 := h [] [⟨"aa".toList, some 'x', .setVal, .str []⟩, ⟨"bb".toList, some 'x', .setVal, .str []⟩]
    ⟨[("aa".toList, 0), ("x".toList, 0), ("bb".toList, 1)],
      [⟨"aa".toList, some 'x', .setVal, .str []⟩, ⟨"bb".toList, some 'x', .setVal, .str []⟩], []⟩ rfl
  have h2 := (h1.2 1 ⟨"bb".toList, some 'x', .setVal, .str []⟩ rfl).2 'x' rfl
  revert h2; decide

/-- C67, the rest: registering a name that is in use is rejected (so a sequence that succeeds has
distinct names); every option is found under its own name; it is found under its short name as well
when no name means two options; and an unused name is never rejected. -/
theorem C67_registration_partial {D : Type} (fname : Str) (decls : List (Opt D)) (c : Config D)
    (hreg : addOpts { (Config.empty : Config D) with fname := fname } decls = .ok c) :
    (decls.map (·.name)).Nodup ∧
    (∀ (i : Nat) (o : Opt D), decls[i]? = some o → lookup c.map o.name = some i) ∧
    (Distinct decls → ∀ (i : Nat) (o : Opt D) (ch : Char), decls[i]? = some o → o.short = some ch →
      lookup c.map [ch] = some i) ∧
    (∀ o : Opt D, (∃ p ∈ decls, p.name = o.name) → addOpt c o = .error .nameExists) ∧
    (∀ o : Opt D, (∀ p ∈ decls, Names p o.name = false) → ∃ c', addOpt c o = .ok c') := by
  obtain ⟨h1, h2, _⟩ := addOpts_ok (mapOk_empty fname) hreg
  have h2 : c.opts = decls := by simpa [Config.empty] using h2
  rw [h2] at h1
  -- every name was unused when it was registered
  have hfresh : ∀ (os : List (Opt D)) (c0 c1 : Config D), MapOk c0.opts c0.map → addOpts c0 os = .ok c1 →
      ∀ (i : Nat) (o : Opt D), os[i]? = some o → ∀ (j : Nat) (p : Opt D), (c0.opts ++ os)[j]? = some p →
        Names p o.name = true → c0.opts.length + i ≤ j := by
    intro os
    induction os with
    | nil => intro c0 c1 _ _ i o ho; simp at ho
    | cons a os ih =>
      intro c0 c1 hm h i o ho j p hp hn
      simp only [addOpts] at h
      split at h
      · cases h
      · rename_i c2 hc2
        obtain ⟨g1, g2, g3, _⟩ := addOpt_ok hm hc2
        cases i with
        | zero =>
          simp at ho; subst ho
          apply Nat.le_of_not_lt
          intro hlt
          simp at hlt
          rw [hm] at g1
          unfold who at g1
          rw [List.findIdx?_eq_none_iff] at g1
          rw [List.getElem?_append_left hlt] at hp
          have := g1 p (List.mem_of_getElem? hp)
          rw [hn] at this; cases this
        | succ i =>
          have := ih c2 c1 g2 h i o (by simpa using ho) j p (by rw [g3]; simpa using hp) hn
          rw [g3] at this
          simp at this; omega
  have hfr := hfresh decls _ c (mapOk_empty fname) hreg
  simp only [Config.empty, List.nil_append, List.length_nil, Nat.zero_add] at hfr
  have hname : ∀ o : Opt D, Names o o.name = true := fun o => by simp [Names]
  have hlook : ∀ (i : Nat) (o : Opt D), decls[i]? = some o → lookup c.map o.name = some i := by
    intro i o ho
    rw [h1]
    unfold who
    rw [List.findIdx?_eq_some_iff_getElem]
    obtain ⟨hi, hio⟩ := List.getElem?_eq_some_iff.1 ho
    refine ⟨hi, by rw [hio]; exact hname o, ?_⟩
    intro j hj hjn
    have := hfr i o ho j decls[j] (List.getElem?_eq_getElem _) (by simpa using hjn)
    omega
  refine ⟨?_, hlook, ?_, ?_, ?_⟩
  · rw [List.nodup_iff_pairwise_ne, List.pairwise_iff_getElem]
    intro i j hi hj hij heq
    simp at hi hj heq
    have := hfr j decls[j] (by simp [hj]) i decls[i] (by simp [hi]) (by rw [← heq]; exact hname _)
    omega
  · intro hdis i o ch ho hs
    rw [h1]
    unfold who
    rw [List.findIdx?_eq_some_iff_getElem]
    obtain ⟨hi, hio⟩ := List.getElem?_eq_some_iff.1 ho
    have hn : Names o [ch] = true := by simp [Names, hs]
    refine ⟨hi, by rw [hio]; exact hn, ?_⟩
    intro j hj hjn
    have := hdis i j o decls[j] [ch] ho (List.getElem?_eq_getElem _) hn (by simpa using hjn)
    omega
  · rintro o ⟨p, hp, hpn⟩
    unfold addOpt
    obtain ⟨i, hi, rfl⟩ := List.getElem_of_mem hp
    rw [if_pos]
    rw [← hpn, hlook i decls[i] (by simp [hi])]; rfl
  · intro o ho
    unfold addOpt
    rw [if_neg]
    · exact ⟨_, rfl⟩
    · rw [h1]
      unfold who
      have : decls.findIdx? (fun p => Names p o.name) = none := by
        rw [List.findIdx?_eq_none_iff]; exact ho
      rw [this]; simp

example : ∃ c, addOpts { (Config.empty : Config Nat) with fname := [] } exDecls = .ok c := ⟨_, rfl⟩

/-- C75, full statement: parsing returns (normally or with an exception) for every option table,
every set of files and every command line. -/
def C75_statement : Prop :=
  ∀ (env : Env Unit) (fname : Str) (decls : List (Opt Unit)) (c : Config Unit) (args : List Arg),
    addOpts { (Config.empty : Config Unit) with fname := fname } decls = .ok c →
    ∃ fuel, parse env fuel c args ≠ .diverge

/-- C75 fails: a configuration file that names itself is loaded over and over. -/
theorem C75_violated : ¬ C75_statement := by
  intro h
  let env : Env Unit := ⟨fun _ => .error .ub, fun _ => .error .ub, fun _ => some "conf=a".toList, 65536⟩
  let c : Config Unit := ⟨[("conf".toList, 0), ("c".toList, 0)], [⟨"conf".toList, some 'c', .setVal, .conf⟩], "a".toList⟩
  obtain ⟨fuel, hf⟩ := h env "a".toList [⟨"conf".toList, some 'c', .setVal, .conf⟩] c [] rfl
  have key : ∀ fuel, load env fuel c "a".toList = .diverge := by
    intro fuel
    induction fuel with
    | zero => rfl
    | succ n ih =>
      have hch : chunks 65536 6 "conf=a".toList = ["conf=a".toList] := by decide
      have hl : loadLine env (load env n) c "conf=a".toList = load env n c "a".toList := by
        have h1 : find "conf=a".toList ['='] 0 = some 4 := by decide
        have h2 : lookup c.map (trim "conf".toList blanks) = some 0 := by decide
        have h3 : trim "a".toList blanks = "a".toList := by decide
        have h4 : "conf=a".toList.takeWhile (· ≠ '\x00') = "conf=a".toList := by decide
        unfold loadLine
        simp only [h4]
        rw [if_neg (by decide), h1]
        simp only
        have h5 : List.take 4 "conf=a".toList = "conf".toList := by decide
        have h6 : List.drop (4 + 1) "conf=a".toList = "a".toList := by decide
        rw [h5, h6, h2, h3]
        rfl
      show (match env.fs "a".toList with
        | none => Res.ok c
        | some s => loop (loadLine env (load env n)) c (chunks env.buffSize s.length s)) = .diverge
      show loop (loadLine env (load env n)) c (chunks 65536 6 "conf=a".toList) = .diverge
      rw [hch]
      simp only [loop, hl, ih]
  apply hf
  unfold parse
  have : c.fname = "a".toList := rfl
  rw [this, key]

/-- C75, the rest: parsing returns whenever the files that name one another are not nested without
end, that is when some ranking of the files decreases along every such mention and is bounded by
`n`. -/
theorem C75_returns_partial {D : Type} (env : Env D) (fname : Str) (decls : List (Opt D)) (c : Config D)
    (args : List Arg) (rank : Str → Nat) (n : Nat)
    (hreg : addOpts { (Config.empty : Config D) with fname := fname } decls = .ok c)
    (htext : ∀ f s, env.fs f = some s → '\x00' ∉ s)
    (hbound : ∀ f, rank f ≤ n)
    (hrank : ∀ f s i v, env.fs f = some s → (i, v) ∈ assigns decls s → isConf decls i → rank v < rank f) :
    parse env (n + 1) c args ≠ .diverge := by
  have hst : St env decls [] c := st_init hreg
  have hld : ∀ f c out, St env decls out c → load env (n + 1) c f ≠ .diverge :=
    fun f c out hst => load_nodiv htext hrank (n + 1) f (by have := hbound f; omega) c out hst
  unfold parse
  split
  · rename_i c1 h1
    rcases load_ok htext (n + 1) c [] _ c1 hst h1 with ⟨_, g2⟩ | ⟨s, new, g1, g2, g3⟩
    · rw [g2]; exact loop_args_nodiv htext hld args _ _ hst
    · exact loop_args_nodiv htext hld args _ _ g3
  · exact hld _ _ _ hst

/-- In the example the files `a` and `b` have ranks 2 and 1: `a` names `b`. -/
def exRank (f : Str) : Nat := if f = "a".toList then 2 else if f = "b".toList then 1 else 0

example : ∀ f s i v, exEnv.fs f = some s → (i, v) ∈ assigns exDecls s → isConf exDecls i → exRank v < exRank f := by
  have ha : lines "peer = p1\nconf = b\n v=\n".toList = ["peer = p1".toList, "conf = b".toList, " v=".toList] := by
    rw [lines_cons (by decide)]; show _ :: lines "conf = b\n v=\n".toList = _
    rw [lines_cons (by decide)]; show _ :: _ :: lines " v=\n".toList = _
    rw [lines_cons (by decide)]; show _ :: _ :: _ :: lines [] = _
    rw [lines]; decide
  have hb : lines "name=y\npeer=p2\nzz=1".toList = ["name=y".toList, "peer=p2".toList, "zz=1".toList] := by
    rw [lines_cons (by decide)]; show _ :: lines "peer=p2\nzz=1".toList = _
    rw [lines_cons (by decide)]; show _ :: _ :: lines "zz=1".toList = _
    rw [lines_cons (by decide)]; show _ :: _ :: _ :: lines [] = _
    rw [lines]; decide
  intro f s i v hs hm hc
  obtain ⟨o, ho, hv⟩ := hc
  have hi : i = 0 := by
    unfold exDecls at ho
    rcases i with _ | _ | _ | _ | i
    · rfl
    all_goals (simp at ho; try (subst ho; cases hv))
  subst hi
  unfold exEnv at hs
  simp only at hs
  split at hs
  · rename_i hf
    injection hs with hs; subst hs; subst hf
    unfold assigns at hm
    rw [ha] at hm
    have : List.filterMap (lineAssign exDecls) ["peer = p1".toList, "conf = b".toList, " v=".toList]
        = [(2, "p1".toList), (0, "b".toList), (3, [])] := by decide
    rw [this] at hm
    simp at hm
    subst hm
    decide
  · split at hs
    · rename_i hf
      injection hs with hs; subst hs; subst hf
      unfold assigns at hm
      rw [hb] at hm
      have : List.filterMap (lineAssign exDecls) ["name=y".toList, "peer=p2".toList, "zz=1".toList]
          = [(1, "y".toList), (2, "p2".toList)] := by decide
      rw [this] at hm
      simp at hm
    · cases hs

end Config

/-- C68, full statement (`1024` is the size of the first buffer). -/
def C68_statement : Prop := ∀ text : Str, vstringprintf 1024 text = text

/-- C68 fails for every text of 1024 characters or more that does not end in NUL: the last character
is replaced by a NUL. -/
theorem C68_violated_all (text : Str) (h : 1024 ≤ text.length) :
    vstringprintf 1024 text = text.dropLast ++ ['\x00'] :=
  vstringprintf_long (by omega) h

/-- A text of 1024 characters loses its last one. -/
theorem C68_violated : ¬ C68_statement := by
  intro h
  have h1 := h (List.replicate 1024 'a')
  rw [C68_violated_all _ (by rw [List.length_replicate]; exact Nat.le_refl _)] at h1
  have h2 := congrArg List.getLast? h1
  rw [List.getLast?_append, List.getLast?_replicate, if_neg (by decide)] at h2
  revert h2; decide

/-- C68, the rest: texts shorter than 1024 characters are returned unchanged. -/
theorem C68_stringprintf_partial (text : Str) (h : text.length < 1024) : vstringprintf 1024 text = text :=
  vstringprintf_short h

example : ("connected to 127.0.0.1".toList).length < 1024 := by decide

/-- C69.  For every non-negative base, every draw of `rand()`, and every floating-point rounding that
is monotone and exact on 0, 1, alpha and base: the timeout lies between `base` and the rounded
`base + alpha * base`; in exact arithmetic with the default alpha, between `base` and `1.5 base`. -/
theorem C69_rand_timeout (rnd : Rat → Rat) (hmono : ∀ x y, x ≤ y → rnd x ≤ rnd y)
    (base alpha : Rat) (hb : 0 ≤ base) (ha : 0 ≤ alpha)
    (h0 : rnd 0 = 0) (h1 : rnd 1 = 1) (halpha : rnd alpha = alpha) (hbase : rnd base = base)
    (r m : Nat) (hm : 0 < m) (hr : r ≤ m) :
    base ≤ genRandTimeout rnd base alpha r m ∧
    genRandTimeout rnd base alpha r m ≤ rnd (base + rnd (alpha * base)) ∧
    base ≤ genRandTimeout id base (1 / 2) r m ∧ genRandTimeout id base (1 / 2) r m ≤ 3 / 2 * base := by
  have hm' : (0 : Rat) < (m : Rat) := by exact_mod_cast hm
  have hinv : (0 : Rat) ≤ (m : Rat)⁻¹ := Rat.le_of_lt (Rat.inv_pos.2 hm')
  have q0 : (0 : Rat) ≤ (r : Rat) / (m : Rat) := by
    rw [Rat.div_def]
    exact Rat.mul_nonneg (by exact_mod_cast Nat.zero_le r) hinv
  have q1 : (r : Rat) / (m : Rat) ≤ 1 := by
    have hle : (r : Rat) ≤ (m : Rat) := by exact_mod_cast hr
    have := Rat.mul_le_mul_of_nonneg_left hle hinv
    rw [Rat.div_def, Rat.mul_comm]
    rw [Rat.inv_mul_cancel _ (by grind)] at this
    exact this
  have gen : ∀ (rnd : Rat → Rat), (∀ x y, x ≤ y → rnd x ≤ rnd y) → ∀ (alpha : Rat), 0 ≤ alpha →
      rnd 0 = 0 → rnd 1 = 1 → rnd alpha = alpha → rnd base = base →
      base ≤ genRandTimeout rnd base alpha r m ∧
      genRandTimeout rnd base alpha r m ≤ rnd (base + rnd (alpha * base)) := by
    intro rnd hmono alpha ha h0 h1 halpha hbase
    unfold genRandTimeout
    have a0 : 0 ≤ rnd ((r : Rat) / (m : Rat)) := by rw [← h0]; exact hmono _ _ q0
    have a1 : rnd ((r : Rat) / (m : Rat)) ≤ 1 := by rw [← h1]; exact hmono _ _ q1
    generalize rnd ((r : Rat) / (m : Rat)) = a at a0 a1
    have b0 : 0 ≤ rnd (a * alpha) := by
      have := hmono _ _ (Rat.mul_nonneg a0 ha)
      rw [h0] at this; exact this
    have b1 : rnd (a * alpha) ≤ alpha := by
      have := Rat.mul_le_mul_of_nonneg_left a1 ha
      have := hmono _ _ this
      rw [Rat.mul_one, halpha, Rat.mul_comm] at this; exact this
    generalize rnd (a * alpha) = b at b0 b1
    have c0 : 0 ≤ rnd (b * base) := by
      have := hmono _ _ (Rat.mul_nonneg b0 hb)
      rw [h0] at this; exact this
    have c1 : rnd (b * base) ≤ rnd (alpha * base) := by
      have := Rat.mul_le_mul_of_nonneg_left b1 hb
      apply hmono
      rw [Rat.mul_comm b, Rat.mul_comm alpha]; exact this
    refine ⟨?_, ?_⟩
    · have := hmono base (base + rnd (b * base)) (by grind)
      rw [hbase] at this; exact this
    · exact hmono _ _ (by grind)
  obtain ⟨g1, g2⟩ := gen rnd hmono alpha ha h0 h1 halpha hbase
  obtain ⟨g3, g4⟩ := gen id (fun _ _ h => h) (1 / 2) (by grind) rfl rfl rfl rfl
  refine ⟨g1, g2, g3, ?_⟩
  simp only [id] at g4
  grind

example : genRandTimeout id 2 (1 / 2) 5 10 = 5 / 2 := by
  unfold genRandTimeout; simp only [id]; grind

/-- C74.  For every non-negative time, `sec2tv` gives a normalised timeval: whole seconds, and
microseconds from 0 to 999999, that together are at most the time and less than one microsecond
below it. -/
theorem C74_sec2tv (t : Rat) (ht : 0 ≤ t) :
    let (s, u) := sec2tv t
    0 ≤ s ∧ 0 ≤ u ∧ u < 1000000 ∧ (s : Rat) + (u : Rat) / 1000000 ≤ t ∧
      t < (s : Rat) + (u : Rat) / 1000000 + 1 / 1000000 := by
  simp only [sec2tv]
  have h1 := Rat.floor_le t
  have h2 := Rat.lt_floor (x := t)
  have h3 := Rat.floor_le ((t - t.floor) * 1000000)
  have h4 := Rat.lt_floor (x := (t - t.floor) * 1000000)
  refine ⟨Rat.le_floor_iff.2 (by simpa using ht), Rat.le_floor_iff.2 ?_, ?_, ?_, ?_⟩
  · have : (0 : Rat) ≤ t - t.floor := by grind
    exact Rat.mul_nonneg this (by decide)
  · have h5 : (((t - t.floor) * 1000000).floor : Rat) < ((1000000 : Int) : Rat) := by
      have : ((1000000 : Int) : Rat) = 1000000 := rfl
      rw [this]; grind
    exact Rat.intCast_lt_intCast.1 h5
  · grind
  · grind

example : (0 : Rat) ≤ 7 / 2 := by grind

end Salticidae
