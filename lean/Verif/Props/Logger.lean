import Verif.Lemmas.Logger
/-
C104: what is logged is in the log.
-/
namespace Salticidae
open Logger

/-- The full statement of C104: whatever a program of several threads does with loggers (as long as it does not use one that does not exist,
or destroy one while it is used), every file holds in the end what it held before, followed by one complete line for every call of a logger on it,
in the order of the writes: the time of the call, the prefix, the kind and the text. -/
def C104_statement : Prop :=
  ∀ (g : Cfg) (old : Nat → Util.Str) (ops : List Op) (e : Spec.Logger.Env) (os : List Out),
    Spec.Logger.follow g (fun _ _ => true) (Spec.Logger.start old) ops = some (e, os) →
    ∃ s, run g (init g old) ops = some (s, os) ∧ s.files = e.files

/-- C104 holds for the programs all of whose steps are `Spec.Logger.careful`.  Missing: the others, see `C104_violated_programs`. -/
theorem C104_lines_partial (g : Cfg) (old : Nat → Util.Str) (ops : List Op) (e : Spec.Logger.Env) (os : List Out)
    (h : Spec.Logger.follow g (Spec.Logger.careful g) (Spec.Logger.start old) ops = some (e, os)) :
    ∃ s, run g (init g old) ops = some (s, os) ∧ s.files = e.files := by
  obtain ⟨s, h1, h2⟩ := run_good g ops (rel_init g old) h
  exact ⟨s, h1, h2.files⟩

/-- The lines are well formed: a line of a text without line feeds ends in its only line feed (if there is none in date and prefix), so
lines can be told apart. -/
theorem C104_one_line (g : Cfg) (l : Spec.Logger.Lg) (p : Call) (hs : '\n' ∉ g.sec p.s) (hp : '\n' ∉ l.pre) (ht : '\n' ∉ p.text) :
    ∃ body, Spec.Logger.line g l p = body ++ ['\n'] ∧ '\n' ∉ body := by
  have hd : ∀ n : Nat, '\n' ≠ Char.ofNat ('0'.toNat + n % 10) := by
    intro n
    have h : ∀ k, k < 10 → '\n' ≠ Char.ofNat ('0'.toNat + k) := by decide
    exact h _ (Nat.mod_lt _ (by decide))
  have h6 : '\n' ∉ pad6 p.us := by
    simp only [pad6, List.map_cons, List.map_nil, List.mem_cons, List.not_mem_nil, or_false, not_or]
    exact ⟨hd _, hd _, hd _, hd _, hd _, hd _⟩
  have htag : '\n' ∉ p.lvl.tag := by cases p.lvl <;> decide
  have hcol : '\n' ∉ p.lvl.color := by cases p.lvl <;> decide
  have hres : '\n' ∉ Logger.reset := by decide
  refine ⟨_, rfl, ?_⟩
  simp only [List.mem_append, not_or]
  refine ⟨?_, ht⟩
  split <;> simp only [List.mem_append, not_or]
  · exact ⟨⟨hcol, ⟨⟨⟨⟨⟨⟨⟨hs, by decide⟩, h6⟩, by decide⟩, hp⟩, by decide⟩, htag⟩, by decide⟩⟩, hres⟩
  · exact ⟨⟨⟨⟨⟨⟨⟨hs, by decide⟩, h6⟩, by decide⟩, hp⟩, by decide⟩, htag⟩, by decide⟩

/-- A system: one letter stands for the date; the first three descriptors are a terminal. -/
def Logger.demo : Cfg := ⟨fun s => [Char.ofNat ('a'.toNat + s)], fun f => f < 3, fun f => f < 3, 3⟩

/-- All files are empty. -/
def Logger.blank : Nat → Util.Str := fun _ => []

/-- The contents of a file at the end. -/
def Logger.final (g : Cfg) (old : Nat → Util.Str) (ops : List Op) (f : Nat) : Option Util.Str :=
  (run g (init g old) ops).map fun r => r.1.files f

/-- A program that meets the hypothesis of `C104_lines_partial`: a logger on the terminal and two on files, calls that overlap, a logger that is
destroyed, whose descriptor is used again. -/
def Logger.tour : List Op :=
  [.fd 0 2 ['n'], .file 1 5 ['m'] true, .file 2 6 ['k'] false, .begin 0 .info ['x'] 1 7, .begin 1 .error ['y'] 1 42, .emit 1 99, .emit 0 99,
   .begin 1 .debug ['z'] 2 0, .emit 0 99, .destroy 1, .file 3 6 ['k'] true, .begin 3 .warning [] 3 999999, .emit 0 99]

example : (Spec.Logger.follow demo (Spec.Logger.careful demo) (Spec.Logger.start blank) tour).map (fun r => (r.1.files 2, r.1.files 5, r.1.files 6, r.2)) =
    some ("\x1b[32mb.000007 [n info] \x1b[0mx\n".toList, "b.000042 [m error] y\nc.000000 [m debug] z\n".toList, "d.999999 [k warn] \n".toList,
      [.none, .none, .failed, .none, .none, .none, .none, .none, .none, .none, .none, .none, .none]) := by decide

/-- C104 is violated: a log file that is opened again is overwritten from its beginning; two loggers on one file overwrite each other's lines;
destroying a copy of a logger closes the file of the original, and the descriptor may be that of another file when the original
is used; the rest of a line that the system does not take is lost; a call in another thread changes the time of a line. -/
theorem C104_violated_programs :
    final demo blank [.file 0 5 ['m'] true, .begin 0 .info ['x', 'x'] 1 0, .emit 0 99, .destroy 0, .file 0 5 ['m'] true, .begin 0 .info ['y'] 2 0, .emit 0 99] 5 =
      some "c.000000 [m info] y\n\n".toList ∧
    final demo blank [.file 0 5 ['m'] true, .file 1 5 ['k'] true, .begin 0 .info ['x'] 1 0, .emit 0 99, .begin 1 .info ['y'] 2 0, .emit 0 99] 5 =
      some "c.000000 [k info] y\n".toList ∧
    final demo blank [.file 0 5 ['m'] true, .copy 1 0, .destroy 1, .begin 0 .info ['x'] 1 0, .emit 0 99] 5 = some [] ∧
    final demo blank [.file 0 5 ['m'] true, .copy 1 0, .destroy 1, .file 2 6 ['k'] true, .begin 0 .info ['x'] 1 0, .emit 0 99] 6 =
      some "b.000000 [m info] x\n".toList ∧
    final demo blank [.file 0 5 ['m'] true, .begin 0 .info ['x'] 1 0, .emit 0 4] 5 = some "b.00".toList ∧
    final demo blank [.file 0 5 ['m'] true, .begin 0 .info ['x'] 1 999999, .begin 0 .info ['y'] 2 0, .emit 0 99] 5 =
      some "c.999999 [m info] x\n".toList := by
  decide +kernel

/-- C104 is violated: of a text of 1024 characters or more the last one is replaced by NUL. -/
theorem C104_violated_long (l : Lg) (lvl : Level) (s us : Nat) (text : Util.Str) (h : 1024 ≤ text.length) (g : Cfg) :
    ∃ a, buff g l lvl s us text = a ++ text.dropLast ++ ['\x00', '\n'] := by
  refine ⟨(if l.col then lvl.color else []) ++ Util.vstringprintf 1024 (head g l.pre lvl s us) ++ (if l.col then Logger.reset else []), ?_⟩
  unfold buff
  rw [Util.vstringprintf_long (by omega) h]
  simp only [List.append_assoc]
  rfl

example : 1024 ≤ (List.replicate 2000 'a').length := by rw [List.length_replicate]; decide

/-- C104 is false as it stands. -/
theorem C104_violated : ¬ C104_statement := by
  intro h
  have := h demo blank [.file 0 5 ['m'] true, .begin 0 .info ['x'] 1 0, .emit 0 4]
  revert this
  simp only [Spec.Logger.follow, Spec.Logger.step, Spec.Logger.start, if_true]
  intro this
  obtain ⟨s, h1, h2⟩ := this _ _ rfl
  have h3 := congrFun h2 5
  have h4 := C104_violated_programs.2.2.2.2.1
  rw [final, h1] at h4
  simp only [Option.map_some, Option.some.injEq] at h4
  rw [h4] at h3
  revert h3
  decide

end Salticidae
