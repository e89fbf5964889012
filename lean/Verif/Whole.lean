import Verif.HuginParse
import Verif.Programs

/-!
# Model of whole programs: from the texts of the files to the text written

The main functions of `nipinference`, `nipmap` and `nipnext` with all their arguments.  A process reads one network file and one data file.
Files can be opened.
-/

namespace Nip

open Res Spec

variable {K : Type} [Field K] [LinearOrder K]

/-- The record of a variable of the model. -/
def ReadModel.node (r : ReadModel K) (v : Nat) : NodeRec := (r.nodes.find? (fun n => n.id == v)).getD ⟨v, [], [], [], 0, 0⟩

/-- The members `symbol`, `cardinality` and `state_names` of the variables (`src/nipvariable.h:53-57`), as the functions for data files and the programs use them. -/
def ReadModel.texts (r : ReadModel K) : VarTexts where
  symbol := fun v => (r.node v).symbol
  card := fun v => (r.node v).states.length
  names := fun v => some (r.node v).states

/-- `parse_model`, `src/nip.c:118-290`, with the interfaces between time steps (`src/nip.c:180-287`); `none` is the null pointer. -/
def openModel (num : Numerals K) (ptr : Nat) (s : Session K) (net : List Char) : Res (Option (ReadModel K × Interface)) := do
  let (r, _) ← parseModel num ptr s net
  match r with
  | none => ok none
  | some r => do
    let i ← NetFile.interface r.file r.model
    ok (some (r, i))

/-- The beginning of the programs, `util/nipinference.c:74-97`, `util/nipmap.c:72-91`, `util/nipnext.c:67-87`: the model and the data; `none`: the
program returns -1 (that there is not even one series is found out later in this model). -/
def openFiles (num : Numerals K) (ptr : Nat) (s : Session K) (net data : List Char) : Res (Option (ReadModel K × Interface × List TimeSeries)) := do
  let o ← openModel num ptr s net
  match o with
  | none => ok none
  | some (r, i) => do
    let set ← readTimeseries r.texts r.file.vars data
    ok (set.map (fun set => (r, i, set)))

/-- `main` of `nipinference`, `util/nipinference.c:49-158`: the exit code and the contents of the output file, if it is written. -/
def inferenceMain (lg : Logs K) (fmt : K → List Char) (num : Numerals K) (ptr : Nat) (s : Session K) (net data name : List Char) :
    Res (Int × Option (List Char)) := do
  let o ← openFiles num ptr s net data
  match o with
  | none => ok (-1, none)
  | some (r, i, set) => nipinference lg fmt r.texts i r.file.vars name set r.model

/-- `main` of `nipmap`, `util/nipmap.c:50-214`. -/
def mapMain (num : Numerals K) (ptr : Nat) (s : Session K) (net data : List Char) : Res (Int × Option (List Char)) := do
  let o ← openFiles num ptr s net data
  match o with
  | none => ok (-1, none)
  | some (r, i, set) => nipmap r.texts i set r.model

/-- `main` of `nipnext`, `util/nipnext.c:47-161`: the exit code and the text printed. -/
def nextMain (lg : Logs K) (fmt : K → List Char) (num : Numerals K) (ptr : Nat) (s : Session K) (net data name : List Char) : Res (Int × List Char) := do
  let o ← openFiles num ptr s net data
  match o with
  | none => ok (-1, [])
  | some (r, i, set) => nipnext lg fmt r.texts i r.file.vars name set r.model

end Nip
