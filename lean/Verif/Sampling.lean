import Mathlib.Algebra.Field.Defs
import Mathlib.Order.Defs.LinearOrder
import Verif.Basic

/-!
# Model of the sampling of data: `lottery` and the order of variables in `generate_data`, `src/nip.c`

Random numbers are arguments.  The rest of `generate_data` (inference, evidence) is composed of functions modelled elsewhere.
-/

namespace Nip

open Res

section lottery

variable {K : Type} [Zero K] [Add K] [LinearOrder K]

/-- The loop of `lottery`, `src/nip.c:2535-2541`, with the random number `r`: the value returned, and whether an error was reported.  `size`
is not negative. -/
def lotteryLoop (distribution : List K) (size : Nat) (r : K) : (fuel i : Nat) → K → Res (Int × Bool)
  | 0, _, _ => ub
  | fuel + 1, i, sum =>
    if size ≤ i then ok ((size : Int) - 1, true)
    else do
      let x ← rd distribution i
      let sum := sum + x
      if sum < r then lotteryLoop distribution size r fuel (i + 1) sum else ok ((i : Int), false)

/-- `lottery`, `src/nip.c:2530-2543`.  There are at most `size + 1` rounds. -/
def lottery (distribution : List K) (size : Nat) (r : K) : Res (Int × Bool) :=
  lotteryLoop distribution size r (size + 1) 0 0

end lottery

/-- The variables of the first part of `generate_data`: the array `vars`, the number `j` of places filled, and the marks of variables. -/
structure OrderState where
  vars : List Nat
  j : Nat
  mark : Nat → Bool

namespace OrderState

/-- `vars[j++] = v; nip_mark_variable(v);`. -/
def add (st : OrderState) (v : Nat) : Res OrderState := do
  let a ← wr st.vars st.j v
  ok { vars := a, j := st.j + 1, mark := fun w => if w = v then true else st.mark w }

/-- First loop: the variables without parents, `src/nip.c:2376-2382`. -/
def independent (parents : Nat → List Nat) (varList : List Nat) (st : OrderState) : Res OrderState :=
  loop varList.length (fun i st => do
    let v ← rd varList i
    if (parents v).length = 0 then st.add v else ok st) st

/-- One pass of the second loop: the unmarked variables all of whose parents are marked, `src/nip.c:2386-2401`. -/
def pass (parents : Nat → List Nat) (varList : List Nat) (st : OrderState) : Res OrderState :=
  loop varList.length (fun i st => do
    let v ← rd varList i
    if st.mark v then ok st
    else if (parents v).all st.mark then st.add v
    else ok st) st

/-- `while(j < nvars)`, `src/nip.c:2385-2402`. -/
def passes (parents : Nat → List Nat) (varList : List Nat) : (fuel : Nat) → OrderState → Res OrderState
  | 0, _ => ub
  | fuel + 1, st =>
    if st.j < varList.length then do
      let st ← pass parents varList st
      passes parents varList fuel st
    else ok st

end OrderState

/-- The order of sampling, `src/nip.c:2362-2402`: marks of earlier operations (`mark`) are removed from the variables of the model.  `fuel`
bounds the number of tests of the `while` loop; running out of it is `ub`. -/
def samplingOrder (parents : Nat → List Nat) (varList : List Nat) (mark : Nat → Bool) (fuel : Nat) : Res (List Nat) := do
  let st : OrderState := { vars := List.replicate varList.length 0, j := 0, mark := fun v => if v ∈ varList then false else mark v }
  let st ← st.independent parents varList
  let st ← st.passes parents varList fuel
  ok st.vars

end Nip
