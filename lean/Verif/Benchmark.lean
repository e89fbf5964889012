import Verif.Reports

/-!
# Model of `main` of `nipbenchmark`

A process reads one network file and one data file.  Files can be opened, read and written, and there is enough memory.  The `j`-th random number drawn for the table of
the `i`-th variable in call `call` of `em_learn` for series `fold` is `rand fold call i j`; the seed has no other effect, and its text is a parameter.  What the program
writes to `stderr` is left out.
-/

namespace Nip

open Res Spec

variable {K : Type} [Field K] [LinearOrder K]

/-- The variables of the main loop of `nipbenchmark`: the array `loo_set` of pointers (`none`: a null pointer, from `calloc`), the marks of the variables, the model, the
array `ucs_set` (it is filled in order, so that only the places filled are in the list), `loglikelihood`, and what has been printed. -/
structure Benchmark (K : Type) where
  loo : List (Option TimeSeries)
  marked : Nat → Bool
  model : Model K
  ucs : List (UncertainSeries K)
  ll : K
  text : List Char

/-- Leave one out, `util/nipbenchmark.c:171-177`. -/
def leaveOut (set : List TimeSeries) (i : Nat) (loo : List (Option TimeSeries)) : Res (List (Option TimeSeries)) :=
  loop set.length (fun j loo => do
    let loo ← if j < i then do
        let ts ← rd set j
        wr loo j (some ts)
      else ok loo
    if i < j then do
      let ts ← rd set j
      wr loo (j - 1) (some ts)
    else ok loo) loo

/-- The series in an array of pointers; to use a null pointer is undefined behaviour. -/
def pointed (loo : List (Option TimeSeries)) : Res (List TimeSeries) :=
  loo.mapM (fun o => match o with
    | some ts => ok ts
    | none => ub)

/-- `nip_mark_variable` for all variables of the model, `util/nipbenchmark.c:179-181` and `src/nipvariable.c:215-218`. -/
def markAll (vars : List Nat) (marked : Nat → Bool) : Nat → Bool := vars.foldl (fun marked v u => if u = v then true else marked u) marked

/-- `nip_unmark_variable`, `src/nipvariable.c:220-223`. -/
def unmark (v : Nat) (marked : Nat → Bool) (u : Nat) : Bool := if u = v then false else marked u

/-- `MAX_ITER`, `util/nipbenchmark.c:45` -/
def benchmarkIterations : Nat := 1024

/-- Learning for one series, `util/nipbenchmark.c:183-214`, for at most `fuel` calls of `em_learn`, of which this one has number `call`; `none` if the loop is not left by
then, else whether there was an error, and the model. -/
def benchmarkLearn (g : Logs K) (i : Interface) (marked : Nat → Bool) (loo : List (Option TimeSeries)) (rand : Nat → Nat → Nat → K) (threshold least : K) :
    (fuel call : Nat) → Model K → Res (Option (Bool × Model K))
  | 0, _, _ => ok none
  | fuel + 1, call, m => do
    let set ← pointed loo
    let R ← emLearn g i marked set (some (rand call)) benchmarkIterations threshold benchmarkIterations m
    if ¬ (R.code = 0 ∨ R.code = NIP_ERROR_BAD_LUCK) then ok (some (true, R.model))
    else
      let last := (R.curve.map (fun a => a / (((set.map (fun ts => ts.length)).sum : Nat) : K))).getLastD 0
      if R.code = NIP_ERROR_BAD_LUCK ∨ last < least then benchmarkLearn g i marked loo rand threshold least fuel (call + 1) R.model
      else ok (some (false, R.model))

/-- One round of the main loop, `util/nipbenchmark.c:169-230`; `none` if learning is not over.  The quotient of zeros for a series without lines is not a number; that is
taken for undefined behaviour here. -/
def benchmarkFold (g : Logs K) (i : Interface) (vars : List Nat) (v : Nat) (set : List TimeSeries) (rand : Nat → Nat → Nat → Nat → K) (threshold least : K) (fuel fold : Nat)
    (st : Benchmark K) : Res (Option (Bool × Benchmark K)) := do
  let loo ← leaveOut set fold st.loo
  let marked := markAll vars st.marked
  let o ← benchmarkLearn g i marked loo (rand fold) threshold least fuel 0 st.model
  match o with
  | none => ok none
  | some (true, m) => ok (some (true, { st with loo := loo, marked := marked, model := m }))
  | some (false, m) => do
    let ts ← rd set fold
    let marked := unmark v marked
    let (r, probe, m) ← forwardBackward (some g) i marked ts [v] m
    if ts.length = 0 then ub
    else ok (some (false, {
      loo := loo, marked := marked, model := m
      ucs := st.ucs ++ [{ vars := [v], length := ts.length, data := r }]
      ll := st.ll + probe / (ts.length : K)
      text := st.text ++ "  ".toList ++ printNat (fold + 1) ++ " / ".toList ++ printNat set.length ++ ['\n'] }))

/-- The main loop, `util/nipbenchmark.c:169-230`. -/
def benchmarkLoop (g : Logs K) (i : Interface) (vars : List Nat) (v : Nat) (set : List TimeSeries) (rand : Nat → Nat → Nat → Nat → K) (threshold least : K) (fuel : Nat)
    (st : Benchmark K) : Res (Option (Bool × Benchmark K)) :=
  loop set.length (fun fold st => match st with
    | some (false, st) => benchmarkFold g i vars v set rand threshold least fuel fold st
    | st => ok st) (some (false, st))

/-- `main` of `nipbenchmark`, `util/nipbenchmark.c:51-253`, with at least five arguments: the exit code, what is in the output file, if it is written, and what is printed;
`none` if the program has not stopped after `fuel` calls of `em_learn` for one of the series.  The arguments are what `strtod` makes of them (`none`: no number is found; what
is not a number in the sense of `K` is left out); `output`: is there a sixth argument?  Without it the name of the output file is a null pointer, and `write_uncertainseries`
only returns an error (`src/nip.c:834-838`).  `model_variable` (`src/nip.c:1602-1615`) searches for the symbol.  New variables are not marked (`src/nipvariable.c:85`). -/
def benchmarkMain (g : Logs K) (shown : K → List Char) (fmt : K → List Char) (num : Numerals K) (ptr : Nat) (s : Session K) (rand : Nat → Nat → Nat → Nat → K) (seed : List Char)
    (fuel : Nat) (net data : List Char) (threshold least : Option K) (name : List Char) (output : Bool) : Res (Option (Int × Option (List Char) × List Char)) := do
  let title := "nipbenchmark:\n".toList
  let o ← openFiles num ptr s net data
  match o with
  | none => ok (some (-1, none, title))
  | some (r, i, set) =>
    if set.length < 2 then ok (some (-1, none, title))
    else
      match threshold with
      | none => ok (some (-1, none, title))
      | some threshold =>
        if threshold ≤ 0 ∨ 1 < threshold then ok (some (-1, none, title))
        else
          match least with
          | none => ok (some (-1, none, title))
          | some least =>
            if 0 ≤ least then ok (some (-1, none, title))
            else
              match r.texts.search r.file.vars name with
              | none => ok (some (-1, none, title))
              | some v => do
                let o ← benchmarkLoop g i r.file.vars v set rand threshold least fuel
                  { loo := List.replicate (set.length - 1) none, marked := fun _ => false, model := r.model, ucs := [], ll := 0
                    text := title ++ "  Computing...\n  Random seed = ".toList ++ seed ++ ['\n'] }
                match o with
                | none => ok none
                | some (true, st) => ok (some (-1, none, st.text))
                | some (false, st) => do
                  let (_, file) ← if output then writeUncertain fmt r.texts st.ucs v else ok (EINVAL, none)
                  ok (some (0, file, st.text ++ "  Average log. likelihood = ".toList ++ shown (st.ll / (set.length : K)) ++ "\n  ...done.\n".toList))

end Nip
