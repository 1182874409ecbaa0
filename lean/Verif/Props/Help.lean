import Verif.Spec.Help
/-!
C132: the help.
-/
namespace Salticidae
namespace Help
open Util (Str)
open Spec.Help

theorem cstr_id {s : Str} (h : ∀ c ∈ s, c ≠ '\x00') : cstr s = s := by
  have := List.takeWhile_append_of_pos (p := fun c => decide (c ≠ '\x00')) (l₁ := s) (l₂ := []) (by intro c hc; simp [h c hc])
  simpa [cstr] using this

theorem spaces_eq {n : Nat} (h : 0 < n) : spaces n = List.replicate n ' ' := by
  cases n with
  | zero => omega
  | succ n => simp [spaces, List.replicate_succ']

theorem foldl_max : ∀ (es : List Entry) (w : Nat), w ≤ es.foldl (fun w e => max w e.name.length) w ∧ (∀ e ∈ es, e.name.length ≤ es.foldl (fun w e => max w e.name.length) w)
  | [], w => by simp
  | a :: es, w => by
    obtain ⟨h1, h2⟩ := foldl_max es (max w a.name.length)
    simp only [List.foldl_cons]
    refine ⟨by omega, fun e he => ?_⟩
    rcases List.mem_cons.1 he with rfl | he
    · omega
    · exact h2 e he

theorem le_width {es : List Entry} {e : Entry} (h : e ∈ es) : e.name.length ≤ width es := (foldl_max es 0).2 e h

/-- A line without its end. -/
def body (w : Nat) (e : Entry) : Str :=
  ' ' :: ' ' :: '-' :: '-' :: (e.name ++ List.replicate (w - e.name.length + 4) ' ' ++ e.mark ++ e.doc)

theorem entry_eq {w : Nat} {e : Entry} (h : Clean e) : entry w e = body w e ++ ['\n'] := by
  obtain ⟨h1, _, h3⟩ := h
  rw [entry, cstr_id (fun c hc => fun x => h1 c hc (by simp [x])), cstr_id (fun c hc => fun x => h3 c hc (by simp [x])), spaces_eq (by omega), body]
  simp

theorem body_nl {w : Nat} {e : Entry} (h : Clean e) : '\n' ∉ body w e := by
  obtain ⟨h1, h2, h3⟩ := h
  intro hm
  simp only [body, List.mem_cons, List.mem_append, List.mem_replicate] at hm
  rcases hm with hm | hm | hm | hm | ((hm | hm) | hm) | hm
  · simp at hm
  · simp at hm
  · simp at hm
  · simp at hm
  · exact h1 _ hm (by simp)
  · simp at hm
  · cases hs : e.short with
    | none => simp [Entry.mark, hs] at hm
    | some c => 
      simp [Entry.mark, hs] at hm
      exact h2 c hs (by simp [← hm])
  · exact h3 _ hm (by simp)

theorem lines_cons {a : Str} (h : '\n' ∉ a) (s : Str) : Spec.Conf.lines (a ++ '\n' :: s) = a :: Spec.Conf.lines s := by
  rw [Spec.Conf.lines]
  have e : (a ++ '\n' :: s).takeWhile (fun c => c ≠ '\n') = a := by
    rw [List.takeWhile_append_of_pos (by intro c hc; simp; exact fun x => h (x ▸ hc))]
    simp
  simp only [e]
  rw [dif_neg (by simp)]
  rw [show a ++ '\n' :: s = (a ++ ['\n']) ++ s by simp, List.drop_append_of_le_length (by simp)]
  simp

theorem lines_help {es : List Entry} {w : Nat} : ∀ {fs : List Entry}, (∀ e ∈ fs, Clean e) → Spec.Conf.lines (fs.flatMap (entry w)) = fs.map (body w)
  | [], _ => by rw [Spec.Conf.lines]; simp
  | e :: fs, h => by
    rw [List.flatMap_cons, entry_eq (h e (by simp)), List.append_assoc, List.singleton_append, lines_cons (body_nl (h e (by simp))), lines_help (es := es) (fun f hf => h f (by simp [hf]))]
    rfl

theorem read_body {w : Nat} {e : Entry} (h : Clean e) : Spec.Help.read (body w e) = some e := by
  obtain ⟨h1, h2, h3⟩ := h
  have hp : ∀ c ∈ e.name, (decide (c ≠ ' ')) = true := fun c hc => by simp; exact fun x => h1 c hc (by simp [x])
  have ht : ∀ t : Str, (e.name ++ (' ' :: t)).takeWhile (fun c => c ≠ ' ') = e.name := by
    intro t
    rw [List.takeWhile_append_of_pos hp]; simp
  have hd : ∀ t : Str, (e.name ++ (' ' :: t)).dropWhile (fun c => c ≠ ' ') = ' ' :: t := by
    intro t
    rw [List.dropWhile_append_of_pos hp]; simp
  have hr : ∀ (n : Nat) (t : Str), (List.replicate n ' ' ++ t).dropWhile (fun c => c = ' ') = t.dropWhile (fun c => c = ' ') := by
    intro n t
    rw [List.dropWhile_append_of_pos (by simp)]
  simp only [body, Spec.Help.read, List.append_assoc]
  rw [show w - e.name.length + 4 = (w - e.name.length + 3) + 1 from rfl, List.replicate_succ, List.cons_append, ht, hd]
  rw [List.dropWhile_cons_of_pos (by simp), hr]
  cases hs : e.short with
  | none => cases e; simp_all [Entry.mark]
  | some c => cases e; simp_all [Entry.mark]

theorem column_append : ∀ (a b : Str) (n : Nat), column n (a ++ b) = column (column n a) b
  | [], _, _ => rfl
  | c :: a, b, n => by
    by_cases h : c = '\t'
    · subst h; simp [column, column_append a b]
    · simp [column, h, column_append a b]

theorem column_plain : ∀ (a : Str) (n : Nat), '\t' ∉ a → column n a = n + a.length
  | [], _, _ => rfl
  | c :: a, n, h => by
    have hc : c ≠ '\t' := fun x => h (by simp [x])
    have := column_plain a (n + 1) (fun x => h (List.mem_cons_of_mem _ x))
    simp [column, hc, this]; omega

theorem doc_column {w : Nat} {e : Entry} (h : Clean e) (hw : e.name.length ≤ w) :
    docColumn (body w e) e = match e.short with
      | some _ => 8 * ((w + 10) / 8 + 1)
      | none => 8 * ((w + 8) / 8 + 2) := by
  obtain ⟨h1, h2, _⟩ := h
  have e1 : (body w e).take ((body w e).length - e.doc.length) = ([' ', ' ', '-', '-'] ++ e.name ++ List.replicate (w - e.name.length + 4) ' ') ++ e.mark := by
    have : body w e = (([' ', ' ', '-', '-'] ++ e.name ++ List.replicate (w - e.name.length + 4) ' ') ++ e.mark) ++ e.doc := by simp [body]
    rw [this, List.length_append, Nat.add_sub_cancel, List.take_left]
  rw [docColumn, e1, column_append, column_plain ([' ', ' ', '-', '-'] ++ e.name ++ _)]
  · have hl : ([' ', ' ', '-', '-'] ++ e.name ++ List.replicate (w - e.name.length + 4) ' ').length = w + 8 := by simp; omega
    rw [hl]
    cases hs : e.short with
    | none => simp [Entry.mark, hs, column]
    | some c =>
      have := h2 c hs
      simp at this
      simp [Entry.mark, hs, column, this]
  · intro hm
    simp only [List.mem_append, List.mem_cons, List.mem_replicate] at hm
    rcases hm with (hm | hm) | hm
    · simp at hm
    · exact h1 _ hm (by simp)
    · simp at hm

end Help

open Util (Str)
open Help (Entry help)
open Spec.Help

/-- C132, first half: the help has one line for each option, in the order in which they were added, and each can be read back: name, short name, description. -/
theorem C132_lines (es : List Entry) (h : ∀ e ∈ es, Clean e) :
    (Spec.Conf.lines (help es)).map read = es.map some := by
  rw [help, Help.lines_help (es := es) h, List.map_map]
  apply List.map_congr_left
  intro e he
  exact Help.read_body (h e he)

/-- The descriptions begin in the same column. -/
def C132_statement : Prop :=
  ∀ (es : List Entry), (∀ e ∈ es, Clean e) → ∀ (i j : Nat) (e f : Entry) (l m : Str),
    es[i]? = some e → es[j]? = some f → (Spec.Conf.lines (help es))[i]? = some l → (Spec.Conf.lines (help es))[j]? = some m →
    docColumn l e = docColumn m f

private def es0 : List Entry := [⟨"conf".toList, some 'c', "load options from a file".toList⟩, ⟨"port".toList, none, "the port".toList⟩]

/-- An option with a short name and one without, the longest name of 4 characters: the descriptions begin in columns 16 and 24. -/
theorem C132_violated : ¬ C132_statement := by
  intro h
  have hc : ∀ e ∈ es0, Clean e := by simp [es0, Clean]
  have hl : Spec.Conf.lines (help es0) = es0.map (Help.body (Help.width es0)) := Help.lines_help (es := es0) hc
  have := h es0 hc 0 1 _ _ _ _ rfl rfl (by rw [hl]; rfl) (by rw [hl]; rfl)
  revert this
  decide

/-- C132, second half, precisely: the descriptions of two options begin in the same column if and only if both have a short name, or neither, or the length of the longest name is 6 or 7 modulo 8. -/
theorem C132_columns_partial (es : List Entry) (h : ∀ e ∈ es, Clean e) (i j : Nat) (e f : Entry) (l m : Str) (hi : es[i]? = some e) (hj : es[j]? = some f)
    (hl : (Spec.Conf.lines (help es))[i]? = some l) (hm : (Spec.Conf.lines (help es))[j]? = some m) (w : Nat) (hw : ∀ g ∈ es, g.name.length ≤ w) (hw' : ∃ g ∈ es, g.name.length = w) :
    docColumn l e = docColumn m f ↔ (e.short.isSome = f.short.isSome ∨ 6 ≤ w % 8) := by
  have hww : Help.width es = w := by
    obtain ⟨g, hg, rfl⟩ := hw'
    have h1 := Help.le_width hg
    have h2 : ∀ (fs : List Entry) (k : Nat), (∀ x ∈ fs, x.name.length ≤ g.name.length) → k ≤ g.name.length → fs.foldl (fun w e => max w e.name.length) k ≤ g.name.length := by
      intro fs
      induction fs with
      | nil => intro k _ hk; exact hk
      | cons a fs ih =>
        intro k hx hk
        have := hx a (by simp)
        exact ih _ (fun x hx' => hx x (by simp [hx'])) (Nat.max_le.2 ⟨hk, this⟩)
    have := h2 es 0 hw (by omega)
    exact Nat.le_antisymm this h1
  rw [help, Help.lines_help (es := es) h, hww] at hl hm
  simp only [List.getElem?_map, hi, hj, Option.map_some, Option.some.injEq] at hl hm
  subst hl hm
  have he := List.mem_of_getElem? hi
  have hf := List.mem_of_getElem? hj
  rw [Help.doc_column (h e he) (hw e he), Help.doc_column (h f hf) (hw f hf)]
  cases e.short <;> cases f.short <;> simp <;> omega

/-- The short names begin in the same column, after the longest name. -/
theorem C132_short_column (es : List Entry) (h : ∀ e ∈ es, Clean e) (i : Nat) (e : Entry) (c : Char) (l : Str) (hi : es[i]? = some e) (hs : e.short = some c)
    (hl : (Spec.Conf.lines (help es))[i]? = some l) :
    ∃ pre, l = pre ++ '-' :: c :: '\t' :: e.doc ∧ pre.length = Help.width es + 8 ∧ '\t' ∉ pre := by
  rw [help, Help.lines_help (es := es) h] at hl
  simp only [List.getElem?_map, hi, Option.map_some, Option.some.injEq] at hl
  subst hl
  have he := List.mem_of_getElem? hi
  have hw := Help.le_width he
  refine ⟨[' ', ' ', '-', '-'] ++ e.name ++ List.replicate (Help.width es - e.name.length + 4) ' ', by simp [Help.body, Entry.mark, hs], by simp; omega, ?_⟩
  intro hm
  simp only [List.mem_append, List.mem_cons, List.mem_replicate] at hm
  rcases hm with (hm | hm) | hm
  · simp at hm
  · exact (h e he).1 _ hm (by simp)
  · simp at hm

example : ∀ e ∈ es0, Clean e := by simp [es0, Clean]

example : help es0 = "  --conf    -c\tload options from a file\n  --port    \t\tthe port\n".toList := by decide

end Salticidae
