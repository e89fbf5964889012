import Mathlib.Algebra.Order.Floor.Defs
import Verif.Generate
import Verif.Whole

/-!
# Model of `main` of `nipsample`

A process reads one network file.  Files can be opened.  The random number drawn for place `i` of time step `t` of series `k` is `r k t i`, which stands for
`rand()/(double)RAND_MAX` (`src/nip.c:2533`); the seed has no other effect.
-/

namespace Nip

open Res Spec

variable {K : Type} [Field K] [LinearOrder K] [FloorRing K]

/-- An argument that is a number of things, `util/nipsample.c:91-98`, `:100-107`: `none` if it is refused.  The argument is what `strtod` makes of it, `none`
if it finds no number (the value is 0 then).  The conversion to `int` comes before the test and is undefined if the whole part does not fit.  What is not a
number in the sense of `K`, like `inf` and `nan`, is left out. -/
def countArgument (a : Option K) : Res (Option Nat) :=
  match a with
  | none => ok none
  | some d => if d ≤ -2147483649 ∨ 2147483648 ≤ d then ub else if d ≤ 0 ∨ 1000000 < d then ok none else ok (some ⌊d⌋₊)

/-- One round of the loop over series, `util/nipsample.c:117-128`.  The state: the series so far, the marks of variables and the model. `generate_data` marks all
variables. -/
def sampleSeries (i : Interface) (fuel : Nat) (r : Nat → Nat → Nat → K) (steps k : Nat) (st : List TimeSeries × (Nat → Bool) × Model K) :
    Res (List TimeSeries × (Nat → Bool) × Model K) := do
  let (ts, m) ← generateData i st.2.1 fuel (r k) steps st.2.2
  ok (st.1 ++ [ts], fun v => if v ∈ m.varList then true else st.2.1 v, m)

/-- `util/nipsample.c:109-147`: the exit code and the contents of the output file, if it is written. -/
def sampleFile (i : Interface) (x : VarTexts) (mark : Nat → Bool) (fuel : Nat) (r : Nat → Nat → Nat → K) (n steps : Nat) (m : Model K) : Res (Int × Option (List Char)) := do
  let st ← loop n (sampleSeries i fuel r steps) ([], mark, m)
  let (code, text) ← writeTimeseries x st.1
  if code ≠ 0 then ok (-1, none) else ok (0, text)

/-- `main` of `nipsample`, `util/nipsample.c:48-148`, with all its arguments: the exit code and the contents of the output file, if it is written.  `seed`: does
`strtol` find a number in the second argument? -/
def sampleMain (num : Numerals K) (ptr : Nat) (s : Session K) (mark : Nat → Bool) (fuel : Nat) (r : Nat → Nat → Nat → K) (net : List Char) (seed : Bool)
    (series steps : Option K) : Res (Int × Option (List Char)) := do
  let o ← openModel num ptr s net
  match o with
  | none => ok (-1, none)
  | some (q, i) =>
    if seed = false then ok (-1, none)
    else do
      let n ← countArgument series
      match n with
      | none => ok (-1, none)
      | some n => do
        let t ← countArgument steps
        match t with
        | none => ok (-1, none)
        | some t => sampleFile i q.texts mark fuel r n t q.model

end Nip
