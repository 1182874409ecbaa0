import Verif.Model.Help
import Verif.Spec.Config
/-!
Specification for C132: reading a line of the help, and columns of a terminal.
-/
namespace Salticidae
namespace Spec.Help
open Util (Str)
open Salticidae.Help (Entry)

/-- A line of the help, read back: two blanks, two dashes, the name up to the next blank, blanks, then the short name with a dash before it and a tab after it, or two tabs, then the description. -/
def read : Str → Option Entry
  | ' ' :: ' ' :: '-' :: '-' :: s =>
    match (s.dropWhile (fun c => c ≠ ' ')).dropWhile (fun c => c = ' ') with
    | '-' :: c :: '\t' :: doc => some ⟨s.takeWhile (fun c => c ≠ ' '), some c, doc⟩
    | '\t' :: '\t' :: doc => some ⟨s.takeWhile (fun c => c ≠ ' '), none, doc⟩
    | _ => none
  | _ => none

/-- Where the cursor of a terminal is after a text, with tab stops every 8 columns. -/
def column : Nat → Str → Nat
  | n, [] => n
  | n, '\t' :: s => column (8 * (n / 8 + 1)) s
  | n, _ :: s => column (n + 1) s

/-- Names and descriptions that fit on a line: no end of line, tab or zero, and no blank in a name. -/
def Clean (e : Entry) : Prop :=
  (∀ c ∈ e.name, c ∉ [' ', '\n', '\t', '\x00']) ∧ (∀ c, e.short = some c → c ∉ ['\n', '\t', '\x00']) ∧ ∀ c ∈ e.doc, c ∉ ['\n', '\x00']

/-- The column in which the description of a line begins: what comes before it is the line without it. -/
def docColumn (line : Str) (e : Entry) : Nat := column 0 (line.take (line.length - e.doc.length))

end Spec.Help
end Salticidae
