import Verif.Dynamic
import Verif.HuginParse

/-!
# Model of the functions of `src/nip.c` that take names, and of uncertain series

The texts of the variables of a model are a list of records (`ReadModel.nodes`), which never changes.
-/

namespace Nip

open Res Spec

variable {K : Type} [Field K] [LinearOrder K]

/-- `model_variable`, `src/nip.c:1602-1615` (the model is not a null pointer): the first variable with the symbol. -/
def modelVariable (nodes : List NodeRec) (symbol : List Char) : Option NodeRec := nodes.find? (fun v => symbol == v.symbol)

/-- `insert_hard_evidence`, `src/nip.c:978-991`.  (The model of `nip_enter_observation` has texts as `String`.) -/
def insertHard (nodes : List NodeRec) (varname observation : List Char) (m : Model K) : Res (Nat × Model K) :=
  match modelVariable nodes varname with
  | none => ok (EINVAL, m)
  | some v => do
    let (ret, m) ← m.enterObservation v.id (some (v.states.map String.ofList)) (String.ofList observation)
    let m ← m.makeConsistent
    ok (ret, m)

/-- `insert_soft_evidence`, `src/nip.c:994-1005`. -/
def insertSoft (nodes : List NodeRec) (varname : List Char) (distribution : List K) (m : Model K) : Res (Nat × Model K) :=
  match modelVariable nodes varname with
  | none => ok (EINVAL, m)
  | some v => do
    let (ret, m) ← m.enterEvidence v.id distribution
    let m ← m.makeConsistent
    ok (ret, m)

/-- `uncertain_series_struct`, `src/nip.h:136-146`: the variables, the length and the numbers by time, variable and state. -/
structure UncertainSeries (K : Type) where
  vars : List Nat
  length : Nat
  data : List (List (List K))

/-- The loop of `insert_ucs_step`, `src/nip.c:1041-1053`: it ends with the first code that is not zero. -/
def insertUcsLoop (marked : Nat → Bool) (row : Nat → Res (List K)) : List Nat → Nat → Model K → Res (Nat × Model K)
  | [], _, m => ok (0, m)
  | v :: vs, i, m =>
    if marked v then do
      let e ← row i
      let (ret, m) ← m.enterEvidence v e
      if ret ≠ 0 then ok (ret, m) else insertUcsLoop marked row vs (i + 1) m
    else insertUcsLoop marked row vs (i + 1) m

/-- `insert_ucs_step`, `src/nip.c:1032-1055`; `marked` tells which variables have the mark asked for. -/
def insertUcsStep (marked : Nat → Bool) (u : UncertainSeries K) (t : Int) (m : Model K) : Res (Nat × Model K) :=
  if t < 0 ∨ (u.length : Int) ≤ t then ok (EINVAL, m)
  else insertUcsLoop marked (fun i => do
    let row ← rd u.data t.toNat
    rd row i) u.vars 0 m

/-- `get_posterior`, `src/nip.c:945-958`; `none` is the null pointer. -/
def getPosterior (u : UncertainSeries K) (v : Nat) (time : Int) : Res (Option (List K)) := do
  let j ← loop u.vars.length (fun i (j : Option Nat) => do
    let w ← rd u.vars i
    ok (if v == w then some i else j)) none
  match j with
  | none => ok none
  | some j =>
    if time < 0 ∨ (u.length : Int) ≤ time then ok none
    else do
      let row ← rd u.data time.toNat
      let r ← rd row j
      ok (some r)

end Nip
