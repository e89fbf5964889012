import Verif.Basic

/-!
# Model of parts of `src/nipvariable.c`

Variables are pointers to structures with a unique identity; all functions modelled here copy pointers around and compare
variables by their identity only, so an array of variables is a list of identities.
-/

namespace Nip

open Res

/-- `NIP_VAR_MIN_ID`, `src/nipvariable.h:27`. -/
def varMinId : Nat := 1

/-- The parts of `nip_variable_struct` (`src/nipvariable.h:62-90`) used by the model: identity, cardinality, current evidence and
the flag "prior already entered". -/
structure Var (K : Type) where
  id : Nat
  card : Nat
  likelihood : List K
  priorEntered : Bool
deriving Repr, DecidableEq

namespace Var

/-- `nip_new_variable`, `src/nipvariable.c:56-130`.  The state is the static counter `id`; texts are not modelled. -/
def new {K : Type} [One K] (nextId : Nat) (cardinality : Nat) : Nat × Var K :=
  (nextId + 1, { id := nextId, card := cardinality, likelihood := List.replicate cardinality 1,
                 priorEntered := false })

/-- `nip_equal_variables`, `src/nipvariable.c:201-205` (non-null arguments). -/
def equal {K : Type} (a b : Var K) : Bool := a.id == b.id

/-- `nip_update_likelihood`, `src/nipvariable.c:273-283`. -/
def updateLikelihood {K : Type} (v : Var K) (likelihood : List K) : Res (Var K) := do
  let l ← loop v.card (fun i l => do
    let x ← rd likelihood i
    wr l i x) v.likelihood
  ok { v with likelihood := l }

/-- `nip_reset_likelihood`, `src/nipvariable.c:286-295`. -/
def resetLikelihood {K : Type} [One K] (v : Var K) : Res (Var K) := do
  let l ← loop v.card (fun i l => wr l i 1) v.likelihood
  ok { v with likelihood := l }

end Var

/-- `for(j = 0; j < n; j++) if(nip_equal_variables(x, arr[j])) break;` -/
def findVar (x : Nat) (arr : List Nat) (n : Nat) : Res (Option Nat) :=
  firstIdx (fun j => do
    let y ← rd arr j
    ok (x == y)) 0 n

/-- The counting loops of `nip_variable_union` and `nip_variable_isect`: the number of elements of `a` found in `b`. -/
def countCommon (a b : List Nat) : Res Nat :=
  loop a.length (fun i n => do
    let x ← rd a i
    let f ← findVar x b b.length
    ok (if f.isSome then n + 1 else n)) 0

/-- `nip_variable_union`, `src/nipvariable.c:446-503`: the array and the size reported in `nc`.  The two arrays are non-null.
The result array has exactly `nc` places (`calloc(*nc, ...)`); null places are `none`.
The first loop decrements from `na + nb`; here the number to subtract is counted. -/
def variableUnion (a b : List Nat) : Res (List (Option Nat) × Nat) :=
  if a.length = 0 ∧ b.length = 0 then ok ([], 0)
  else do
    let common ← countCommon a b
    let nc := a.length + b.length - common
    if nc = 0 then ok ([], 0)
    else do
      let c := List.replicate nc none
      let c ← loop a.length (fun i c => do
        let x ← rd a i
        wr c i (some x)) c
      let r ← loop b.length (fun i (st : List (Option Nat) × Nat) => do
        let x ← rd b i
        let f ← firstIdx (fun j => do
          let y ← rd st.1 j
          ok (y == some x)) 0 st.2
        if f.isSome then ok st
        else do
          let c ← wr st.1 st.2 (some x)
          ok (c, st.2 + 1)) (c, a.length)
      ok (r.1, nc)

/-- `nip_variable_isect`, `src/nipvariable.c:506-557`: the array and the size reported in `nc`. -/
def variableIsect (a b : List Nat) : Res (List (Option Nat) × Nat) :=
  if a.length = 0 ∨ b.length = 0 then ok ([], 0)
  else do
    let nc ← countCommon a b
    if nc = 0 then ok ([], 0)
    else do
      let c := List.replicate nc none
      let r ← loop a.length (fun i (st : List (Option Nat) × Nat) => do
        let x ← rd a i
        let f ← findVar x b b.length
        if f.isSome then do
          let c ← wr st.1 st.2 (some x)
          ok (c, st.2 + 1)
        else ok st) (c, 0)
      ok (r.1, nc)

/-- The body of the loop of `nip_mapper`. -/
def mapperStep (set subset : List Nat) (i : Nat) (m : List Nat) : Res (List Nat) := do
  let x ← rd subset i
  let f ← findVar x set set.length
  match f with
  | some j => wr m i j
  | none => ok m

/-- `nip_mapper`, `src/nipvariable.c:560-589`: `none` is the null pointer, with the error code reported. -/
def mapper (set subset : List Nat) : Res (Nat × Option (List Nat)) :=
  if subset.length < 1 then ok (0, none)
  else if ¬ (set.length ≥ subset.length) then ok (EINVAL, none)
  else do
    let m ← loop subset.length (mapperStep set subset) (List.replicate subset.length 0)
    ok (0, some m)

/-- `nip_sort_variables`, `src/nipvariable.c:410-443`: `none` is the null pointer for an empty array.  The inner loop starts at
`j = 1` in every round. -/
def sortVariables (vars : List Nat) : Res (Option (List Nat)) :=
  if vars.length < 1 then ok none
  else do
    let sorted ← loop (vars.length - 1) (fun i s =>
      loop (vars.length - 1) (fun j' s => do
        let j := j' + 1
        let x ← rd s j
        let y ← rd s i
        if x < y then do
          let s ← wr s j y
          wr s i x
        else ok s) s) vars
    ok (some sorted)

end Nip
