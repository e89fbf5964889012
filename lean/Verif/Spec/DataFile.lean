import Verif.Spec.Tokens

/-!
# What a data file contains

A data file is a list of lines.  A line is a list of fields, which are separated by whitespace or the separator character; blank lines
separate the time series.
-/

namespace Nip.Spec

/-- the longest pieces of the list without the elements that satisfy `p` -/
def groups {α : Type} (p : α → Bool) (l : List α) : List (List α) := (l.splitOnP p).filter (fun g => !g.isEmpty)

/-- characters between fields -/
def between (sep c : Char) : Bool := whitespace c || c == sep

/-- the fields of a line -/
def fields (sep : Char) (line : List Char) : List (List Char) := groups (between sep) line

/-- a line without fields -/
def blankLine (sep : Char) (line : List Char) : Bool := line.all (between sep)

/-- the lines after the header, which is the first line that is not blank -/
def dataLines (header : Bool) (sep : Char) (lines : List (List Char)) : List (List Char) :=
  if header then (lines.dropWhile (blankLine sep)).tail else lines

/-- the time series of a file: maximal groups of lines that are not blank -/
def series (header : Bool) (sep : Char) (lines : List (List Char)) : List (List (List Char)) :=
  groups (blankLine sep) (dataLines header sep lines)

/-- the marks of a missing value -/
def missing (value : List Char) : Bool := value = "N/A".toList || value = "null".toList || value = "<null>".toList

/-- the values that occur in a column of the data -/
def Occurs (header : Bool) (sep : Char) (lines : List (List Char)) (column : Nat) (value : List Char) : Prop :=
  ∃ line ∈ dataLines header sep lines, (fields sep line)[column]? = some value

end Nip.Spec
