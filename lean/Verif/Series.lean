import Verif.DataFile
import Verif.Variable

/-!
# Model of the time series of `src/nip.c`

Variables are identities; their texts are in a table of the variables.  An `int` of the data is an `Int`.
-/

namespace Nip

open Res

/-- The texts of variables, by identity: the fields `symbol`, `cardinality` and `state_names` of `nip_variable_struct`
(`src/nipvariable.h:52-83`); `none` is the null pointer. -/
structure VarTexts where
  symbol : Nat → List Char
  card : Nat → Nat
  names : Nat → Option (List (List Char))

/-- `time_series_struct`, `src/nip.h:118-131`, with `num_of_vars` of the model. -/
structure TimeSeries where
  numVars : Nat
  numHidden : Int
  hidden : List Nat
  numObserved : Nat
  observed : List Nat
  length : Nat
  data : List (List Int)
deriving Repr, DecidableEq

/-- `nip_variable_state_index`, `src/nipvariable.c:239-247`. -/
def VarTexts.stateIndex (x : VarTexts) (v : Nat) (state : List Char) : Res Int :=
  match x.names v with
  | none => ok (-1)
  | some names => do
    let f ← firstIdx (fun i => do
      let name ← rd names i
      ok (state == name)) 0 (x.card v)
    ok (match f with
      | some i => (i : Int)
      | none => -1)

/-- `v->state_names[i]` -/
def VarTexts.stateName (x : VarTexts) (v : Nat) (i : Int) : Res (List Char) :=
  match x.names v with
  | none => ub
  | some names => if i < 0 then ub else rd names i.toNat

/-- `nip_search_variable_array`, `src/nipvariable.c:257-270` (`model_variable`, `src/nip.c`): the first variable with the symbol. -/
def VarTexts.search (x : VarTexts) (vars : List Nat) (symbol : List Char) : Option Nat := vars.find? (fun v => symbol == x.symbol v)

namespace TimeSeries

/-- The loop that looks for the last place of `v` among the observed variables, `src/nip.c:930-933`; `-1` is `none`. -/
def place (ts : TimeSeries) (v : Nat) : Res (Option Nat) :=
  loop ((ts.numVars : Int) - ts.numHidden).toNat (fun i (j : Option Nat) => do
    let u ← rd ts.observed i
    ok (if v == u then some i else j)) none

/-- `get_observation`, `src/nip.c:929-942`; `none` is the null pointer. -/
def getObservation (x : VarTexts) (ts : TimeSeries) (v : Nat) (time : Int) : Res (Option (List Char)) := do
  let j ← ts.place v
  match j with
  | none => ok none
  | some j =>
    if time < 0 ∨ (ts.length : Int) ≤ time then ok none
    else do
      let row ← rd ts.data time.toNat
      let d ← rd row j
      let name ← x.stateName v d
      ok (some name)

/-- `set_observation`, `src/nip.c:961-975`. -/
def setObservation (x : VarTexts) (ts : TimeSeries) (v : Nat) (time : Int) (observation : List Char) : Res (Nat × TimeSeries) := do
  let j ← ts.place v
  let i ← x.stateIndex v observation
  match j with
  | none => ok (EINVAL, ts)
  | some j =>
    if i < 0 then ok (EINVAL, ts)
    else if time < 0 then ub
    else do
      let row ← rd ts.data time.toNat
      let row ← wr row j i
      let data ← wr ts.data time.toNat row
      ok (0, { ts with data := data })

end TimeSeries

/-! ## Reading -/

/-- `NIP_FIELD_SEPARATOR`, `src/nip.h:54`. -/
def fieldSeparator : Char := ','

/-- `nip_next_line_tokens`, `src/nipparsers.c:443-523`, for an open file with `nodes` columns whose header is line number `label`: `rest` are
the lines not yet read, `current` the number of those read.  The tokens are `none` at the end of the file (the C function then returns 0 and
leaves the pointer alone) and after a failure of the tokeniser. -/
def nextLineTokens (sep : Char) (label : Int) (nodes : Nat) : (rest : List (List Char)) → (current : Nat) →
    Res (Option (List (List Char)) × List (List Char) × Nat)
  | [], current => ok (none, [], current)
  | line :: rest, current => do
    let n ← countTokens (lineOpt sep) line
    let current := current + 1
    let n := if (current : Int) = label then 0 else n
    if n < 1 then nextLineTokens sep label nodes rest current
    else do
      let bounds ← tokenise (lineOpt sep) (some line) n
      match bounds with
      | none => ok (none, rest, current)
      | some bounds => do
        let m := if nodes < n then nodes else n
        let tokens ← loop m (fun i tokens => do
          let t ← copyToken line bounds i
          ok (tokens ++ [t])) []
        ok (some tokens, rest, current)

/-- One line of data, `src/nip.c:632-661`: the row and the place after the line.  Without a line the array of tokens, freed before, is freed
again. -/
def readRow (x : VarTexts) (vars : List Nat) (d : DataFile) (obs : Nat) (st : List (List Char) × Nat) :
    Res (List Int × List (List Char) × Nat) := do
  let (tokens, rest, current) ← nextLineTokens fieldSeparator d.label d.symbols.length st.1 st.2
  match tokens with
  | none => ub
  | some tokens => do
    let r ← loop d.symbols.length (fun i (r : List Int × Nat) => do
      let symbol ← rd d.symbols i
      match x.search vars symbol with
      | none => ok r
      | some v =>
        -- after the end of a short line the loop has been left
        if tokens.length ≤ i then ok r
        else do
          let token ← rd tokens i
          let s ← x.stateIndex v token
          let row ← wr r.1 r.2 s
          ok (row, r.2 + 1)) (List.replicate obs 0, 0)
    ok (r.1, rest, current)

/-- The hidden variables, `src/nip.c:586-597`: an array of `n` places. -/
def hiddenVariables (x : VarTexts) (vars : List Nat) (symbols : List (List Char)) (n : Nat) : Res (List (Option Nat) × Nat) :=
  loop vars.length (fun k (st : List (Option Nat) × Nat) => do
    let v ← rd vars k
    if symbols.any (fun s => x.search vars s == some v) then ok st
    else do
      let a ← wr st.1 st.2 (some v)
      ok (a, st.2 + 1)) (List.replicate n none, 0)

/-- The observed variables, `src/nip.c:600-606`: an array of `obs` places. -/
def observedVariables (x : VarTexts) (vars : List Nat) (symbols : List (List Char)) (obs : Nat) : Res (List (Option Nat) × Nat) :=
  loop symbols.length (fun i (st : List (Option Nat) × Nat) => do
    let s ← rd symbols i
    match x.search vars s with
    | none => ok st
    | some v => do
      let a ← wr st.1 st.2 (some v)
      ok (a, st.2 + 1)) (List.replicate obs none, 0)

/-- One time series of `read_timeseries`, `src/nip.c:545-668`; `none` is the return with an error because a negative number of places is
requested from `calloc`.  Places of the arrays of variables that were not filled are null pointers and left out. -/
def readOne (x : VarTexts) (vars : List Nat) (d : DataFile) (length : Nat) (st : List (List Char) × Nat) :
    Res (Option (TimeSeries × List (List Char) × Nat)) := do
  let obs := (d.symbols.filter (fun s => (x.search vars s).isSome)).length
  let numHidden : Int := (vars.length : Int) - obs
  if numHidden < 0 then ok none
  else do
    let (hidden, _) ← hiddenVariables x vars d.symbols numHidden.toNat
    if obs = 0 then
      let ts : TimeSeries :=
        { numVars := vars.length, numHidden := numHidden, hidden := hidden.filterMap id, numObserved := obs, observed := [],
          length := length, data := [] }
      ok (some (ts, st))
    else do
      let (observed, _) ← observedVariables x vars d.symbols obs
      let (data, rest) ← loop length (fun j (r : List (List Int) × List (List Char) × Nat) => do
        let (row, st) ← readRow x vars d obs r.2
        let data ← wr r.1 j row
        ok (data, st)) (List.replicate length (List.replicate obs 0), st)
      let ts : TimeSeries :=
        { numVars := vars.length, numHidden := numHidden, hidden := hidden.filterMap id, numObserved := obs,
          observed := observed.filterMap id, length := length, data := data }
      ok (some (ts, rest))

/-- `read_timeseries`, `src/nip.c:519-678`, for an existing file: the time series; `none` is the return of 0 with an error. -/
def readTimeseries (x : VarTexts) (vars : List Nat) (file : List Char) : Res (Option (List TimeSeries)) := do
  let d ← analyseDataFile fieldSeparator true file
  match d with
  | none => ok none
  | some d => do
    let r ← loop d.ndatarows (fun n (r : Option (List TimeSeries × List (List Char) × Nat)) =>
      match r with
      | none => ok none
      | some (l, st) => do
        let len ← rd d.datarows n
        let o ← readOne x vars d len st
        match o with
        | none => ok none
        | some (ts, st) => ok (some (l ++ [ts], st))) (some ([], fileLines file, 0))
    match r with
    | none => ok none
    | some (l, _) => ok (some l)

/-! ## Writing -/

/-- `strings` separated by the field separator. -/
def joinFields : List (List Char) → List Char
  | [] => []
  | [s] => s
  | s :: t :: l => s ++ fieldSeparator :: joinFields (t :: l)

/-- The union of the observed variables, `src/nip.c:712-734`.  The second array is null for the first series. -/
def observedUnion (set : List TimeSeries) : Res (List (Option Nat) × Nat) :=
  match set with
  | [] => ok ([], 0)
  | ts :: l => do
    let first ← variableUnion (ts.observed.take ((ts.numVars : Int) - ts.numHidden).toNat) []
    l.foldlM (fun (st : List (Option Nat) × Nat) ts =>
      variableUnion (st.1.filterMap id) (ts.observed.take ((ts.numVars : Int) - ts.numHidden).toNat)) first

/-- One value of the record, `src/nip.c:772-773`; `map` is the result of `nip_mapper`. -/
def recordStep (map : Option (List Nat)) (row : List Int) (i : Nat) (record : List Int) : Res (List Int) :=
  match map with
  | none => ub
  | some map => do
    let m ← rd map i
    let v ← rd row i
    wr record m v

/-- One line of the file, `src/nip.c:770-792`; `map` is the result of `nip_mapper`, the null pointer if nothing is observed. -/
def writeRow (x : VarTexts) (observed : List Nat) (map : Option (List Nat)) (numObserved : Nat) (row : List Int) : Res (List Char) := do
  let record ← loop numObserved (recordStep map row) (List.replicate observed.length (-1))
  let words ← loop observed.length (fun i words => do
    let v ← rd observed i
    let d ← rd record i
    if d ≥ 0 then do
      let name ← x.stateName v d
      ok (words ++ [name])
    else ok (words ++ ["null".toList])) []
  ok (joinFields words ++ ['\n'])

/-- `write_timeseries`, `src/nip.c:681-800`: the code and the contents of the file (`none`: no file is written).  All series are of the same
model; the file can be opened and written. -/
def writeTimeseries (x : VarTexts) (set : List TimeSeries) : Res (Nat × Option (List Char)) :=
  if set = [] then ok (EINVAL, none)
  else do
    let (observed, n) ← observedUnion set
    if n = 0 then ok (EINVAL, none)
    else do
      let observed := observed.filterMap id
      let header := joinFields (observed.map x.symbol) ++ ['\n']
      let text ← set.foldlM (fun text ts => do
        let (_, map) ← mapper observed ts.observed
        let text ← loop ts.length (fun t text => do
          let row ← rd ts.data t
          let line ← writeRow x observed map ts.numObserved row
          ok (text ++ line)) text
        ok (text ++ ['\n'])) header
      ok (0, some text)

end Nip
