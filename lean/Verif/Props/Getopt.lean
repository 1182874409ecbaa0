import Verif.Lemmas.Getopt
import Verif.Props.Util
/-!
C131: command lines.
-/
namespace Salticidae
open Util (Str)
open Conf (Opt Config Env Res Arg Err addOpts)
open Spec.Getopt

/-- C131, in full: a command line made of long options (--name=value, --name value, --name), short options (-cvalue, -c value, several flags in one argument) and other arguments, in any order, makes the
assignments that are written, in that order, and leaves the other arguments in their order, with everything after "--". -/
def C131_statement : Prop :=
  ∀ (D : Type) (env : Env D) (fuel : Nat) (fname : Str) (decls : List (Opt D)) (c : Config D) (prog : Str) (items : List Item) (tail : Option (List Str)),
    addOpts { (Config.empty : Config D) with fname := fname } decls = .ok c → (∀ it ∈ items, Fits decls it) →
    Getopt.parse env fuel false c 1 (line decls prog items tail) = (Conf.parse env fuel c (items.flatMap sets), items.flatMap leaves ++ tail.getD [])

/-- Nothing to read. -/
private def env0 : Env Unit := ⟨fun _ => .error .optvalInvalid, fun _ => .error .optvalInvalid, fun _ => none, 1024⟩

/-- An option whose short name is a question mark: it is given, and parse says that it is invalid. -/
theorem C131_violated : ¬ C131_statement := by
  intro h
  have := h Unit env0 1 [] [⟨"help".toList, some '?', .switchOn, .flag false⟩] _ [] [.shortFlags ['?']] none rfl
    (by intro it hit; cases List.mem_singleton.1 hit; exact ⟨by simp, fun c hc => by simp at hc; subst hc; exact ⟨_, List.mem_singleton.2 rfl, rfl, rfl⟩⟩)
  revert this
  decide

/-- A long name of one character, x, of an option with a value, and another option, a flag, with the short name x: "-x" makes parse hand a null pointer to the option named x. -/
theorem C131_violated_null :
    ∃ (decls : List (Opt Unit)) (c : Config Unit) (items : List Item),
      addOpts Config.empty decls = .ok c ∧ (∀ it ∈ items, Fits decls it) ∧
      (Getopt.parse env0 1 false c 1 (line decls [] items none)).1 = .throw .ub := by
  refine ⟨[⟨"x".toList, none, .setVal, .str []⟩, ⟨"bar".toList, some 'x', .switchOn, .flag false⟩], _, [.shortFlags ['x']], rfl, ?_, by decide⟩
  intro it hit
  cases List.mem_singleton.1 hit
  exact ⟨by simp, fun c hc => by simp at hc; subst hc; exact ⟨_, List.mem_cons_of_mem _ (List.mem_singleton.2 rfl), rfl, rfl⟩⟩

/-- C131 where names can be written on a command line (no empty name, no equals sign in a name, none of : ; ? + - as a short name), and where no name means two options. -/
theorem C131_line_partial {D : Type} (env : Env D) (fuel : Nat) (fname : Str) (decls : List (Opt D)) (c : Config D) (prog : Str) (items : List Item) (tail : Option (List Str))
    (hreg : addOpts { (Config.empty : Config D) with fname := fname } decls = .ok c) (hW : Writable decls) (hD : Spec.Conf.Distinct decls) (hf : ∀ it ∈ items, Fits decls it) :
    Getopt.parse env fuel false c 1 (line decls prog items tail) = (Conf.parse env fuel c (items.flatMap sets), items.flatMap leaves ++ tail.getD []) := by
  obtain ⟨hn, _, hl, _⟩ := C67_registration_partial fname decls c hreg
  obtain ⟨_, h2, _⟩ := Conf.addOpts_ok (Conf.mapOk_empty fname) hreg
  have h2 : c.opts = decls := by simpa [Config.empty] using h2
  have hs : Getopt.getopt false (c.opts.map Getopt.LOpt.of) 1 (line decls prog items tail) = (items.flatMap Getopt.events, items.flatMap leaves ++ tail.getD []) := by
    simp only [Getopt.getopt, h2, Getopt.order_ok hW]
    unfold line
    rw [List.drop_succ_cons, List.drop_zero]
    apply Getopt.scan_line hW hD hn tail items hf
    have := Getopt.length_le (decls := decls) items
    simp only [List.length_cons, List.length_append]
    omega
  simp only [Getopt.parse, hs, Getopt.toArgs_ok hW h2 (hl hD) items hf, Conf.parse]
  cases Conf.load env fuel c c.fname with
  | ok c' => simp [Getopt.loop_some]
  | throw e => rfl
  | diverge => rfl

/-- parse returns the index from which on the arguments are left. -/
theorem C131_index {D : Type} (fname : Str) (decls : List (Opt D)) (c : Config D) (prog : Str) (items : List Item) (tail : Option (List Str))
    (hreg : addOpts { (Config.empty : Config D) with fname := fname } decls = .ok c) (hW : Writable decls) (hD : Spec.Conf.Distinct decls) (hf : ∀ it ∈ items, Fits decls it) :
    Getopt.optindAfter false c 1 (line decls prog items tail) + (items.flatMap leaves ++ tail.getD []).length = (line decls prog items tail).length := by
  have h := C131_line_partial (⟨fun _ => .error .optvalInvalid, fun _ => .error .optvalInvalid, fun _ => none, 1⟩ : Env D) 1 fname decls c prog items tail hreg hW hD hf
  have h := congrArg Prod.snd h
  simp only [Getopt.parse] at h
  rw [Getopt.optindAfter, h]
  have hl := Getopt.leaves_le (decls := decls) items
  clear h
  simp only [line, List.length_append, List.length_cons]
  cases tail with
  | none => simp only [Option.getD_none, List.length_nil]; omega
  | some t => simp only [Option.getD_some, List.length_cons]; omega

/-- The place in the command line is a global variable of getopt, and parse does not reset it: after one call that leaves nothing, a second call, for this or another configuration, of as many arguments
makes no assignment, whatever they are. -/
theorem C131_violated_again {D : Type} (env : Env D) (fuel : Nat) (fname : Str) (decls : List (Opt D)) (c c2 : Config D) (prog : Str) (items : List Item) (posix : Bool) (argv : List Str)
    (hreg : addOpts { (Config.empty : Config D) with fname := fname } decls = .ok c) (hW : Writable decls) (hD : Spec.Conf.Distinct decls) (hf : ∀ it ∈ items, Fits decls it)
    (hlv : items.flatMap leaves = []) (hlen : argv.length = (line decls prog items none).length) :
    Getopt.parse env fuel posix c2 (Getopt.optindAfter false c 1 (line decls prog items none)) argv = (Conf.parse env fuel c2 [], []) := by
  have h := C131_index fname decls c prog items none hreg hW hD hf
  rw [hlv] at h
  have h : Getopt.optindAfter false c 1 (line decls prog items none) = argv.length := by simp at h; omega
  simp only [Getopt.parse, h, Getopt.getopt, List.drop_length, Getopt.scan_nil, List.map_nil, Conf.parse]
  cases Conf.load env fuel c2 c2.fname <;> rfl

/-- The beginning of a long name does for the name, when no other name begins with it. -/
theorem C131_abbreviation {D : Type} (env : Env D) (fuel : Nat) (fname : Str) (decls : List (Opt D)) (c : Config D) (prog : Str) (i : Nat) (o : Opt D) (pre v : Str)
    (hreg : addOpts { (Config.empty : Config D) with fname := fname } decls = .ok c) (hW : Writable decls)
    (ho : decls[i]? = some o) (ha : o.action ≠ .switchOn) (hp : pre <+: o.name) (hu : ∀ j p, decls[j]? = some p → pre <+: p.name → j = i) :
    Getopt.parse env fuel false c 1 [prog, '-' :: '-' :: (pre ++ '=' :: v)] = (Conf.parse env fuel c [.long i v], []) := by
  obtain ⟨_, h2, _⟩ := Conf.addOpts_ok (Conf.mapOk_empty fname) hreg
  have h2 : c.opts = decls := by simpa [Config.empty] using h2
  have hq : '=' ∉ pre := fun hm => (hW o (List.mem_of_getElem? ho)).2.1 (hp.subset hm)
  have hfl : Getopt.findLong (decls.map Getopt.LOpt.of) pre = some i := by
    rw [Getopt.findLong]
    cases hx : (decls.map Getopt.LOpt.of).findIdx? (fun o => o.name = pre) with
    | some j =>
      obtain ⟨hj, he, _⟩ := List.findIdx?_eq_some_iff_getElem.1 hx
      simp only [List.length_map] at hj
      have he : decls[j].name = pre := by simpa [Getopt.LOpt.of] using he
      have := hu j decls[j] (List.getElem?_eq_getElem hj) (by rw [he]; exact List.prefix_rfl)
      simp [this]
    | none =>
      have hi := (List.getElem?_eq_some_iff.1 ho).1
      have e : (List.range (decls.map Getopt.LOpt.of).length).filter (fun k => ((decls.map Getopt.LOpt.of)[k]?.map (fun o => pre.isPrefixOf o.name)).getD false) = [i] := by
        have hf : ∀ k ∈ List.range (decls.map Getopt.LOpt.of).length,
            (((decls.map Getopt.LOpt.of)[k]?.map (fun o => pre.isPrefixOf o.name)).getD false) = decide (k = i) := by
          intro k hk
          have hk : k < decls.length := by simpa using hk
          by_cases hki : k = i
          · subst hki
            simp [ho, Getopt.LOpt.of, hp]
          · simp only [List.getElem?_map, List.getElem?_eq_getElem hk, Option.map_some, Option.getD_some, hki, decide_false]
            cases hb : pre.isPrefixOf (Getopt.LOpt.of decls[k]).name with
            | false => rfl
            | true => exact absurd (hu k decls[k] (List.getElem?_eq_getElem hk) (by simpa [Getopt.LOpt.of] using hb)) hki
        rw [List.filter_congr hf, List.length_map]
        exact Getopt.filter_one hi
      simp only [e]
  have hs : Getopt.getopt false (c.opts.map Getopt.LOpt.of) 1 [prog, '-' :: '-' :: (pre ++ '=' :: v)] = ([(.long i, some v)], []) := by
    simp only [Getopt.getopt, h2, Getopt.order_ok hW, List.drop_succ_cons, List.drop_zero, List.length_cons, List.length_nil]
    rw [Getopt.scan_long (by simp)]
    simp only [Getopt.long, Getopt.cut_take v hq, Getopt.cut_drop v hq, hfl]
    simp [ho, Getopt.LOpt.of, ha, Getopt.scan]
  simp only [Getopt.parse, hs, Conf.parse]
  cases Conf.load env fuel c c.fname with
  | ok c' => exact congrArg (·, []) (Getopt.loop_some (env := env) (fuel := fuel) [.long i v] c')
  | throw e => rfl
  | diverge => rfl

/-- Options as in a program, and a command line with everything. -/
private def decls0 : List (Opt Unit) :=
  [⟨"conf".toList, some 'c', .setVal, .conf⟩, ⟨"port".toList, some 'p', .setVal, .str []⟩, ⟨"peer".toList, none, .append, .vec []⟩,
   ⟨"verbose".toList, some 'v', .switchOn, .flag false⟩, ⟨"quick".toList, some 'q', .switchOn, .flag false⟩]

private def items0 : List Item :=
  [.longSet 2 "a=b".toList true, .plain "x".toList, .shortFlags "vq".toList, .shortSet 'p' "80".toList true, .plain "-".toList, .longSet 2 "--port".toList false, .shortSet 'p' "-v".toList false,
   .longFlag 3]

example : line decls0 "prog".toList items0 (some ["-v".toList]) =
    ["prog", "--peer=a=b", "x", "-vq", "-p80", "-", "--peer", "--port", "-p", "-v", "--verbose", "--", "-v"].map String.toList := by decide

example : Writable decls0 := by simp [Writable, decls0]

example : Spec.Conf.Distinct decls0 := by
  intro i j o p k hi hj h1 h2
  rcases i with _ | _ | _ | _ | _ | i <;> rcases j with _ | _ | _ | _ | _ | j <;>
    simp [decls0] at hi hj <;> (try rfl) <;> subst hi <;> subst hj <;> simp [Spec.Conf.Names] at h1 h2 <;>
    rcases h1 with rfl | rfl <;> simp at h2

example : ∀ it ∈ items0, Fits decls0 it := by
  simp [items0, Fits, decls0]

example : ((addOpts Config.empty decls0).toOption.map (fun c => (Getopt.parse env0 1 false c 1 (line decls0 "prog".toList items0 (some ["-v".toList]))).2)) =
    some ["x".toList, "-".toList, "-v".toList] := by decide

/-- "--po=1" sets the port, "--p=1" is ambiguous. -/
example : ((addOpts Config.empty decls0).toOption.map (fun c => (Getopt.getopt false (c.opts.map Getopt.LOpt.of) 1 ["prog".toList, "--po=1".toList, "--p=1".toList]).1)) =
    some [(.long 1, some ['1']), (.char '?', none)] := by decide

end Salticidae
