import Verif.Whole
import Verif.WriteModel

/-!
# Model of `main` of `niptrain`

A process reads one network file and one data file.  Files can be opened, read and written.  The `j`-th random number drawn for the table of the `i`-th variable in batch
`batch` of run `run` is `rand run batch i j`; the seed has no other effect.  `%g` and `rint` are parameters.  What the program writes to `stderr` is left out.
-/

namespace Nip

open Res Spec

variable {K : Type} [Field K] [LinearOrder K]

/-- The variables of the loops of `niptrain`: `n` and `k` (from 0 on), `left_iterations`, `have_random_init`, `stopping_criterion`, the learning curve, the model, and what
has been written to the output file. -/
structure Training (K : Type) where
  run : Nat
  batch : Nat
  left : Int
  random : Bool
  criterion : Convergence
  curve : List K
  model : Model K
  file : Option (List Char)

/-- One round of the inner loop, `util/niptrain.c:208-241`: the code of `em_learn` and the variables; `k++` is left to the next function. -/
def trainBatch (g : Logs K) (fmt : K → List Char) (r : ReadModel K) (i : Interface) (set : List TimeSeries) (rand : Nat → Nat → Nat → Nat → K) (threshold : K)
    (st : Training K) : Res (Nat × Training K) := do
  let current := if st.left > batchIterations then batchIterations else st.left
  let R ← emLearn g i (fun _ => true) set (if st.random then some (rand st.run st.batch) else none) current threshold (max 3 current.toNat) st.model
  if ¬ (R.code = 0 ∨ R.code = NIP_ERROR_BAD_LUCK) then ok (R.code, { st with model := R.model })
  else do
    let curve := st.curve ++ R.curve.map (fun a => a / (((set.map (fun ts => ts.length)).sum : Nat) : K))
    let (out, m) ← writeModel fmt { r with model := R.model }
    let criterion := R.criterion.getD st.criterion
    ok (R.code, { st with
      left := if criterion = .delta then 0 else st.left - current
      random := if criterion = .iterations then false else st.random
      criterion := criterion, curve := curve, model := m, file := some out })

/-- The two loops, `util/niptrain.c:196-262`, for at most `fuel` calls of `em_learn`; `none` if the program has not left the loops by then, else whether there was an
error, and the variables. -/
def trainLoop (g : Logs K) (fmt : K → List Char) (r : ReadModel K) (i : Interface) (set : List TimeSeries) (rand : Nat → Nat → Nat → Nat → K) (threshold least : K)
    (most : Int) : (fuel : Nat) → Training K → Res (Option (Bool × Training K))
  | 0, _ => ok none
  | fuel + 1, st => do
    let (e, st) ← trainBatch g fmt r i set rand threshold st
    if ¬ (e = 0 ∨ e = NIP_ERROR_BAD_LUCK) then ok (some (true, st))
    else if st.left > 0 then trainLoop g fmt r i set rand threshold least most fuel { st with batch := st.batch + 1 }
    else if e = NIP_ERROR_BAD_LUCK ∨ st.curve.getLastD 0 < least then
      trainLoop g fmt r i set rand threshold least most fuel { st with run := st.run + 1, batch := 0, left := most, random := true, curve := [] }
    else ok (some (false, { st with random := true }))

/-- The learning curve, `util/niptrain.c:269-275`. -/
def printCurve (shown : K → List Char) (rint : K → K) (threshold : K) (curve : List K) : List Char :=
  (curve.foldl (fun (st : Nat × List Char) a => (st.1 + 1, st.2 ++ printNat st.1 ++ [','] ++ shown (rint (a / threshold) * threshold) ++ ['\n'])) (1, [])).2

/-- `LONG_MAX` -/
def longMax : Int := 9223372036854775807

/-- `main` of `niptrain`, `util/niptrain.c:73-293`, with all its arguments: the exit code, what is in the output file, if it is written, and what is printed; `none` if the
program has not stopped after `fuel` calls of `em_learn`.  The arguments are what `strtol` and `strtod` make of them: does `strtol` find a number in the third argument; the
values of the next ones, `none` if no number is found.  What is not a number in the sense of `K`, like `inf` and `nan`, is left out. -/
def trainMain (g : Logs K) (fmt shown : K → List Char) (rint : K → K) (num : Numerals K) (ptr : Nat) (s : Session K) (rand : Nat → Nat → Nat → Nat → K) (fuel : Nat)
    (net data : List Char) (seed : Bool) (threshold least : Option K) (most : Option Int) : Res (Option (Int × Option (List Char) × List Char)) := do
  let o ← openFiles num ptr s net data
  match o with
  | none => ok (some (-1, none, []))
  | some (r, i, set) =>
    match set with
    | [] => ok (some (-1, none, []))
    | ts :: set =>
      if (r.file.vars.length : Int) = ts.numHidden then ok (some (-1, none, []))
      else
        let threshold := threshold.getD 0
        if threshold ≤ 0 ∨ 1 < threshold then ok (some (-1, none, []))
        else
          match least with
          | none => ok (some (-1, none, []))
          | some least =>
            if 0 ≤ least then ok (some (-1, none, []))
            else do
              let most := most.getD longMax
              let o ← trainLoop g fmt r i (ts :: set) rand threshold least most fuel
                { run := 0, batch := 0, left := most, random := seed, criterion := .likelihood, curve := [], model := r.model, file := none }
              match o with
              | none => ok none
              | some (true, st) => ok (some (-1, st.file, []))
              | some (false, st) => do
                let (out, _) ← writeModel fmt { r with model := st.model }
                ok (some (0, some out, printCurve shown rint threshold st.curve))

end Nip
