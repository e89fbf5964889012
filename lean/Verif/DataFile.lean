import Verif.Tokens

/-!
# Model of the data files of `src/nipparsers.c`

A file is the list of its characters (without null characters).  Memory is available; `calloc` with size zero returns a pointer that is
not null.  String lists (`nip_string_list`) are the lists of their contents in order.
-/

namespace Nip

open Res

/-- One call of `fgets` with room for `n` characters: the characters read and the rest of the file. -/
def fgets : Nat → List Char → List Char × List Char
  | 0, s => ([], s)
  | _ + 1, [] => ([], [])
  | n + 1, c :: s => if c == '\n' then ([c], s) else (c :: (fgets n s).1, (fgets n s).2)

/-- `MAX_LINELENGTH`, `src/nipparsers.h:31`. -/
def maxLineLength : Nat := 10000

/-- The successive results of `fgets(line, MAX_LINELENGTH, file)` from the start of the file; each call reads at least one character, so
the length of the file is enough fuel. -/
def readLines : (fuel : Nat) → List Char → List (List Char)
  | 0, _ => []
  | _ + 1, [] => []
  | fuel + 1, s => (fgets (maxLineLength - 1) s).1 :: readLines fuel (fgets (maxLineLength - 1) s).2

/-- all lines of a file as read by `fgets` -/
def fileLines (s : List Char) : List (List Char) := readLines s.length s

/-- `nip_count_tokens(line, NULL, 0, &separator, 1, 0, 1)`, the arguments used for data files. -/
def lineOpt (sep : Char) : TokOpt := { quoted := false, separators := some [sep], sepTokens := false, wspace := true }

/-- The local variables of `nip_count_data_rows`, with `current_line` and `label_line` of the file. -/
structure RowCount where
  current : Nat
  label : Int
  line : Nat
  empty : Nat
  rows : Nat
  state : Nat
deriving Repr, DecidableEq

/-- The body of the loop of `nip_count_data_rows`, `src/nipparsers.c:258-285`. -/
def countRowsStep (sep : Char) (line : List Char) (t : RowCount) : Res RowCount := do
  let n ← countTokens (lineOpt sep) line
  let t := { t with current := t.current + 1 }
  if n = 0 then ok { t with line := 0, empty := t.empty + 1 }
  else
    let t := { t with line := t.line + 1, empty := 0 }
    let t : RowCount := if t.state ≥ 1 then
        let t : RowCount := if t.state ≥ 2 then { t with label := t.current, line := 0 } else t
        { t with state := t.state - 1 }
      else t
    ok (if t.state = 0 ∧ t.line = 1 then { t with rows := t.rows + 1 } else t)

/-- `nip_count_data_rows`, `src/nipparsers.c:245-291`: the number of time series and the line of the header. -/
def countDataRows (sep : Char) (header : Bool) (lines : List (List Char)) : Res (Nat × Int) := do
  let t ← loop lines.length (fun k t => do
    let line ← rd lines k
    countRowsStep sep line t)
    { current := 0, label := -1, line := 0, empty := 0, rows := 0, state := if header then 2 else 1 }
  ok (t.rows, t.label)

/-- `nip_null_observation`, `src/nipparsers.c:381-400` (non-null argument). -/
def nullObservation (token : List Char) : Bool := token = "N/A".toList || token = "null".toList || token = "<null>".toList

/-- `nip_set_node_symbols`, `src/nipparsers.c:294-337`.  Without a header the arrays for the invented names are too short by at least one
character (`"node1"` needs six, five are allocated), so that `sprintf` leaves them. -/
def setNodeSymbols (header : Bool) (line : List Char) (bounds : List Nat) (ntokens : Nat) : Res (List (List Char)) :=
  if header then
    loop ntokens (fun i names => do
      let w ← copyToken line bounds i
      ok (names ++ [w])) []
  else if ntokens = 0 then ok [] else ub

/-- `nip_accumulate_state_names`, `src/nipparsers.c:340-375`; the number returned is left out. -/
def accumulateStateNames (names : List (List (List Char))) (line : List Char) (bounds : List Nat) (ntokens : Nat) :
    Res (List (List (List Char))) :=
  loop ntokens (fun i names => do
    let token ← copyToken line bounds i
    if nullObservation token then ok names
    else do
      let l ← rd names i
      if l.any (fun w => token == w) then ok names else wr names i (token :: l)) names

/-- The local variables of `nip_analyse_data_file` and the parts of the data file it sets; `linecounter` is never read and left out.
`names` is `none` while `statenames` is the null pointer. -/
structure Analysis where
  state : Nat
  ts : Nat
  empty : Nat
  datarows : List Nat
  symbols : List (List Char)
  names : Option (List (List (List Char)))
deriving Repr, DecidableEq

/-- The body of the loop of `nip_analyse_data_file`, `src/nipparsers.c:130-221`; `none` is the return with `-1`. -/
def analyseStep (sep : Char) (header : Bool) (line : List Char) (t : Analysis) : Res (Option Analysis) := do
  let n ← countTokens (lineOpt sep) line
  if n = 0 then ok (some { t with empty := t.empty + 1 })
  else do
    let bounds ← tokenise (lineOpt sep) (some line) n
    match bounds with
    | none => ok none
    | some bounds =>
      let t := { t with ts := if t.empty > 0 ∧ t.state < 1 then t.ts + 1 else t.ts, empty := 0, state := t.state - 1 }
      if t.state > 0 then do
        let symbols ← setNodeSymbols header line bounds n
        ok (some { t with symbols := symbols, names := some (List.replicate n []) })
      else do
        let r ← rd t.datarows t.ts
        let rows ← wr t.datarows t.ts (r + 1)
        let t := { t with datarows := rows }
        let i := if t.symbols.length < n then t.symbols.length else n
        if i > 0 then
          match t.names with
          | none => ub
          | some names => do
            let names ← accumulateStateNames names line bounds i
            ok (some { t with names := some names })
        else ok (some t)

/-- What is known about a data file after `nip_analyse_data_file`: `ndatarows`, `datarows`, `label_line`, `node_symbols` (their number is
`num_of_nodes`) and `node_states` (the numbers of which are `num_of_states`), and the value returned. -/
structure DataFile where
  ndatarows : Nat
  datarows : List Nat
  label : Int
  symbols : List (List Char)
  states : List (List (List Char))
  returned : Nat
deriving Repr, DecidableEq

/-- `nip_analyse_data_file`, `src/nipparsers.c:97-238`, for a file opened for reading; `none` is the return with `-1`.
`nip_string_list_to_array` copies the list. -/
def analyseDataFile (sep : Char) (header : Bool) (file : List Char) : Res (Option DataFile) := do
  let lines := fileLines file
  let (rows, label) ← countDataRows sep header lines
  let t ← loop lines.length (fun k (t : Option Analysis) =>
    match t with
    | none => ok none
    | some t => do
      let line ← rd lines k
      analyseStep sep header line t)
    (some { state := if header then 2 else 1, ts := 0, empty := 0, datarows := List.replicate rows 0, symbols := [], names := none })
  match t with
  | none => ok none
  | some t => do
    let states ← loop t.symbols.length (fun i states =>
      match t.names with
      | none => ub
      | some names => do
        let l ← rd names i
        ok (states ++ [l])) []
    ok (some { ndatarows := rows, datarows := t.datarows, label := label, symbols := t.symbols, states := states, returned := t.ts })

end Nip
