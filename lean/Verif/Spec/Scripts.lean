import Mathlib.Algebra.Order.Ring.Int
import Mathlib.Data.List.Basic

/-!
# What the data scripts should do

A data file is a list of lines, a line a list of fields; a line without fields is empty.
-/

namespace Nip.Spec

/-- the text of a line -/
def lineText (l : List (List Char)) : List Char := [','].intercalate l ++ ['\n']

/-- the text of a file -/
def linesText (lines : List (List (List Char))) : List Char := lines.flatMap lineText

/-- The fields have no commas and line ends, and a line with one field has something in it. -/
def CleanLine (l : List (List Char)) : Prop := (∀ f ∈ l, ',' ∉ f ∧ '\n' ∉ f) ∧ l ≠ [[]]

/-- The text is that of the lines; the line end after the last line may be missing, if that line is not empty. -/
def TextOf (lines : List (List (List Char))) (text : List Char) : Prop :=
  (∀ l ∈ lines, CleanLine l) ∧ (text = linesText lines ∨ text ++ ['\n'] = linesText lines ∧ lines.getLast? ≠ some [])

/-- one column, with an empty line for each line without it -/
def columnText (k : Nat) (lines : List (List (List Char))) : List Char := lines.flatMap (fun l => l.getD k [] ++ ['\n'])

/-- `header` is the first line that is not empty; `above` empty lines stand above it, and `below` stands below it. -/
def HasHeader (lines : List (List (List Char))) (above : Nat) (header : List (List Char)) (below : List (List (List Char))) : Prop :=
  lines = List.replicate above [] ++ header :: below ∧ header ≠ []

/-- The fields of columns whose probability is not negative, as they should be shown; `prob` is the table of probabilities (percentages) and `header` the names of columns. -/
def keptFields (prob : List Char → ℤ) (header : List (List Char)) (shown : Nat → List Char → List Char) (l : List (List Char)) : List (List Char) :=
  (l.zipIdx.filter (fun f => decide (0 ≤ prob (header.getD f.2 [])))).map (fun f => shown f.2 f.1)

/-- a name of a column: with a prefix if the variable is hidden -/
def shownName (prob : List Char → ℤ) (name : List Char) : List Char := if prob name = 0 then "hidden_".toList ++ name else name

/-- a value in a column with a percentage, for a random number -/
def shownValue (percent : ℤ) (random : Nat) (value : List Char) : List Char := if percent = 0 ∨ (random : ℤ) < percent then value else "null".toList

/-- The lines below the header; `random` are the random numbers, of which `drawn` have been used.  One is used for each field. -/
def shownLines (prob : List Char → ℤ) (header : List (List Char)) (random : Nat → Nat) : Nat → List (List (List Char)) → List (List (List Char))
  | _, [] => []
  | drawn, l :: ls => keptFields prob header (fun j f => shownValue (prob (header.getD j [])) (random (drawn + j)) f) l :: shownLines prob header random (drawn + l.length) ls

/-- the file with part of the values hidden -/
def hiddenFile (prob : List Char → ℤ) (random : Nat → Nat) (above : Nat) (header : List (List Char)) (below : List (List (List Char))) : List (List (List Char)) :=
  List.replicate above [] ++ keptFields prob header (fun _ f => shownName prob f) header :: shownLines prob header random 0 below

/-- The text of the fields that are kept, with a comma too many if the last field of the line is not kept and another is. -/
def hideLine (prob : List Char → ℤ) (header : List (List Char)) (shown : Nat → List Char → List Char) (l : List (List Char)) : List Char :=
  [','].intercalate (keptFields prob header shown l) ++
    (if l ≠ [] ∧ prob (header.getD (l.length - 1) []) < 0 ∧ keptFields prob header shown l ≠ [] then [','] else []) ++ ['\n']

/-- the text of the lines below the header, with these commas -/
def hideBelow (prob : List Char → ℤ) (header : List (List Char)) (random : Nat → Nat) : Nat → List (List (List Char)) → List Char
  | _, [] => []
  | drawn, l :: ls => hideLine prob header (fun j f => shownValue (prob (header.getD j [])) (random (drawn + j)) f) l ++ hideBelow prob header random (drawn + l.length) ls

/-- The last column of the line is kept (or there is none). -/
def LastKept (prob : List Char → ℤ) (header l : List (List Char)) : Prop := l ≠ [] → 0 ≤ prob (header.getD (l.length - 1) [])

end Nip.Spec
