import Verif.Series
import Verif.Spec.DataFile

/-!
# Vocabulary for time series

Of the model only the data types are used.
-/

namespace Nip

/-- The arrays of a time series have the sizes that its numbers tell. -/
structure TimeSeries.WellFormed (ts : TimeSeries) : Prop where
  observed : ts.numObserved = ts.observed.length
  hidden : (ts.numVars : Int) - ts.numHidden = ts.observed.length
  rows : ts.data.length = ts.length
  row : ∀ row ∈ ts.data, row.length = ts.observed.length

/-- The names of a variable's states: as many as it has states. -/
def VarTexts.Named (x : VarTexts) (v : Nat) (names : List (List Char)) : Prop := x.names v = some names ∧ names.length = x.card v

/-- The variables of a model: different variables have different names, and the states of each have names. -/
structure VarTexts.Model (x : VarTexts) (vars : List Nat) : Prop where
  nodup : vars.Nodup
  symbols : ∀ u ∈ vars, ∀ v ∈ vars, x.symbol u = x.symbol v → u = v
  named : ∀ v ∈ vars, ∃ names, x.Named v names

/-- The value of a variable at a time step: that of the column of the variable; `-1` (missing) if the variable is not observed. -/
def TimeSeries.value (ts : TimeSeries) (v t : Nat) : Int := ((ts.data[t]?).bind (fun row => (ts.observed.zip row).lookup v)).getD (-1)

/-- A time series of a model: the arrays have their sizes, the observed variables are different variables of the model, and each value is
missing or a state of its variable. -/
structure TimeSeries.Valid (x : VarTexts) (vars : List Nat) (ts : TimeSeries) : Prop where
  wellFormed : ts.WellFormed
  nodup : ts.observed.Nodup
  sub : ∀ v ∈ ts.observed, v ∈ vars
  values : ∀ v ∈ vars, ∀ t, -1 ≤ ts.value v t ∧ ts.value v t < (x.card v : Int)

namespace Spec

/-- a text that is a single field: not empty, without whitespace and commas -/
def Word (w : List Char) : Prop := w ≠ [] ∧ ∀ c ∈ w, between ',' c = false

/-- The names of a variable and its states can be written to a file: they are single fields of at most `width` characters, the names of the
states differ, and none is the mark of missing values. -/
structure Printable (x : VarTexts) (width : Nat) (v : Nat) : Prop where
  symbol : Word (x.symbol v) ∧ (x.symbol v).length ≤ width
  states : ∀ names, x.names v = some names → names.Nodup ∧ ∀ name ∈ names, Word name ∧ name.length ≤ width ∧ name ≠ "null".toList

/-- the fields of the header: the first line that is not blank -/
def headerFields (sep : Char) (lines : List (List Char)) : List (List Char) :=
  match lines.dropWhile (blankLine sep) with
  | h :: _ => fields sep h
  | [] => []

/-- What a field tells about a variable: the first state with that name; `-1` (missing) if no state has that name or there is no field. -/
def Tells (x : VarTexts) (v : Nat) (field : Option (List Char)) (d : Int) : Prop :=
  (∃ names word, ∃ i : Nat, x.names v = some names ∧ field = some word ∧ names[i]? = some word ∧ (∀ j < i, names[j]? ≠ some word) ∧ d = i) ∨
  (d = -1 ∧ ∀ names word, x.names v = some names → field = some word → word ∉ names)

/-- The series says what the lines say below the header: which variables are observed, which not, and the values. -/
structure Delivers (x : VarTexts) (vars : List Nat) (header : List (List Char)) (lines : List (List Char)) (ts : TimeSeries) : Prop where
  length : ts.length = lines.length
  numVars : ts.numVars = vars.length
  numHidden : ts.numHidden = ts.hidden.length
  hidden : ts.hidden = vars.filter (fun v => x.symbol v ∉ header)
  numObserved : ts.numObserved = ts.observed.length
  once : ts.observed.Nodup
  observed : ∀ v, v ∈ ts.observed ↔ v ∈ vars ∧ x.symbol v ∈ header
  values : ∀ (t : Nat) line (k v c : Nat), lines[t]? = some line → ts.observed[k]? = some v → header[c]? = some (x.symbol v) →
    ∃ row d, ts.data[t]? = some row ∧ row[k]? = some d ∧ Tells x v (fields ',' line)[c]? d

end Spec

end Nip
