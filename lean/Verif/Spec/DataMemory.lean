import Verif.Spec.DataFile
import Mathlib.Data.List.Dedup
import Mathlib.Algebra.BigOperators.Group.List.Basic

/-!
# What the memory of a data file should hold

For each column with values there is an array with the names of its states, which are the distinct values that are not missing.
-/

namespace Nip.Spec

/-- the fields of the first line that is not blank -/
def columnNames (sep : Char) (lines : List (List Char)) : List (List Char) :=
  match lines.dropWhile (blankLine sep) with
  | h :: _ => fields sep h
  | [] => []

/-- the values of a column that are not missing, in the order of the lines -/
def columnValues (sep : Char) (lines : List (List Char)) (column : Nat) : List (List Char) :=
  ((dataLines true sep lines).filterMap (fun line => (fields sep line)[column]?)).filter (fun v => !missing v)

/-- the blocks for the states of a column: none without values, otherwise an array and one text for each distinct value -/
def columnBlocks (sep : Char) (lines : List (List Char)) (column : Nat) : Nat :=
  match (columnValues sep lines column).dedup.length with
  | 0 => 0
  | n + 1 => 1 + (n + 1)

/-- The blocks of a file: the file, its name and the line counts; with a header that is not missing an array and the names of the columns, the state counts, the array for the states, and
the states of all columns. -/
def fileBlocks (header : Bool) (sep : Char) (lines : List (List Char)) : Nat :=
  3 + if header && !lines.all (blankLine sep) then
    (1 + (columnNames sep lines).length) + 1 + 1 + ((List.range (columnNames sep lines).length).map (columnBlocks sep lines)).sum
  else 0

end Nip.Spec
