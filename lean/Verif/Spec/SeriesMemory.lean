import Mathlib.Algebra.BigOperators.Group.List.Basic

/-!
# What the memory of time series and results should hold

A program reads time series from files, runs inference on them, and frees series, results and the arrays in which it got the series.  What it gets is numbered in the order in
which it got it: a file of three series gives the array and then the series, four numbers.
-/

namespace Nip.Spec

/-- A file with time series: for each column whether it is a variable of the model, and for each series the number of fields of each line. -/
structure FileShape where
  known : List Bool
  series : List (List Nat)
deriving Repr, DecidableEq

/-- the number of columns that are variables of the model -/
def FileShape.observed (f : FileShape) : Nat := f.known.count true

/-- Calls about series and results. -/
inductive SeriesCall where
  /-- read a file; the model has `vars` variables -/
  | read (vars : Nat) (file : FileShape)
  /-- filtering of series `v`: `interface` is the number of variables in the outgoing interface, `cards` are the numbers of states of the variables asked for, and `good` says
  whether messages could be passed without an error -/
  | filter (interface : Nat) (cards : List Nat) (v : Nat) (good : Bool)
  /-- smoothing -/
  | smooth (interface : Nat) (cards : List Nat) (v : Nat) (good : Bool)
  /-- the most likely sequence of `asked` of the `vars` variables of the model -/
  | mlss (vars asked : Nat) (v : Nat)
  | freeSeries (v : Nat)
  | freeResults (v : Nat)
  | freeArray (v : Nat)
deriving Repr, DecidableEq

/-- What the program got. -/
inductive SeriesRecord where
  /-- an array of series -/
  | array
  /-- a series of some length; `data` says whether it has any data -/
  | series (length : Nat) (data : Bool)
  /-- results for some variables over some length -/
  | results (vars length : Nat)
  /-- NULL -/
  | nothing
  | freed
deriving Repr, DecidableEq

/-- The blocks of memory needed.  A series: itself and the array of hidden variables; with data also the array of observed variables, the array of steps and each step.  Results:
themselves, the array of variables, the array of steps, and for each step an array and one block for each variable. -/
def SeriesRecord.blocks : SeriesRecord → Nat
  | .array => 1
  | .series length data => if data then 4 + length else 2
  | .results vars length => 3 + length * (1 + vars)
  | .nothing => 0
  | .freed => 0

/-- all that the program got so far -/
abbrev SeriesLedger := List SeriesRecord

/-- the length of a series -/
def SeriesLedger.lengthOf (l : SeriesLedger) (v : Nat) : Nat :=
  match l[v]? with
  | some (.series n _) => n
  | _ => 0

/-- what one gets from a file -/
def FileShape.records (f : FileShape) : List SeriesRecord := .array :: f.series.map (fun s => .series s.length (decide (0 < f.observed)))

/-- the ledger after a call -/
def SeriesLedger.after (l : SeriesLedger) : SeriesCall → SeriesLedger
  | .read _ file => l ++ file.records
  | .filter _ cards v good => l ++ [if good then .results cards.length (l.lengthOf v) else .nothing]
  | .smooth _ cards v good => l ++ [if good then .results cards.length (l.lengthOf v) else .nothing]
  | .mlss _ _ v => l ++ [.series (l.lengthOf v) true]
  | .freeSeries v => l.modify v (fun r => match r with
      | .nothing => .nothing
      | _ => .freed)
  | .freeResults v => l.modify v (fun r => match r with
      | .nothing => .nothing
      | _ => .freed)
  | .freeArray v => l.modify v (fun r => match r with
      | .nothing => .nothing
      | _ => .freed)

/-- The call uses only series and results that exist (where NULL may be freed, also NULL); the files have no empty lines within series, and no more fields in a line than columns. -/
def SeriesCall.Allowed (l : SeriesLedger) : SeriesCall → Prop
  | .read vars file => file.observed ≤ vars ∧ ∀ s ∈ file.series, ∀ n ∈ s, 0 < n ∧ n ≤ file.known.length
  | .filter _ _ v _ => ∃ n d, l[v]? = some (.series n d)
  | .smooth _ _ v _ => ∃ n d, l[v]? = some (.series n d)
  | .mlss vars asked v => asked ≤ vars ∧ ∃ n d, l[v]? = some (.series n d)
  | .freeSeries v => l[v]? = some .nothing ∨ ∃ n d, l[v]? = some (.series n d)
  | .freeResults v => l[v]? = some .nothing ∨ ∃ k n, l[v]? = some (.results k n)
  | .freeArray v => l[v]? = some .array

/-- All calls of a history are allowed. -/
def SeriesTidy : SeriesLedger → List SeriesCall → Prop
  | _, [] => True
  | l, a :: h => a.Allowed l ∧ SeriesTidy (l.after a) h

/-- the ledger after a history -/
def SeriesLedger.final (l : SeriesLedger) (h : List SeriesCall) : SeriesLedger := h.foldl SeriesLedger.after l

/-- all blocks needed -/
def SeriesLedger.blocks (l : SeriesLedger) : Nat := (l.map SeriesRecord.blocks).sum

end Nip.Spec
