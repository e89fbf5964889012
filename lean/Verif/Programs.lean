import Verif.EmLoop
import Verif.Joint
import Verif.Named
import Verif.Series

/-!
# Model of the programs of `util`, and of `write_uncertainseries` of `src/nip.c`

Each program is modelled from the point on where the network file was read: its arguments are the model, its interface, the texts of the
variables and the data.  Messages to the standard error stream are left out.  Files can be opened and written, memory is always available.
How a number is printed (`%f`, `%g`) is an argument.
-/

namespace Nip

open Res Spec

variable {K : Type} [Field K] [LinearOrder K]

/-! ## Lines -/

/-- The loop that prints `n` words with separators between them, e.g. `src/nip.c:871-875`, `src/nip.c:884-888`, `util/nipconvert.c:133-137`. -/
def printFields (n : Nat) (word : Nat → Res (List Char)) (text : List Char) : Res (List Char) :=
  loop n (fun i text => do
    let text := if 0 < i then text ++ [fieldSeparator] else text
    let w ← word i
    ok (text ++ w)) text

/-- The loop that prints `n` words, each followed by a separator, the last one by the end of the line, `util/nipnext.c:103-109`,
`util/nipnext.c:130-136`. -/
def printRow (n : Nat) (word : Nat → Res (List Char)) (text : List Char) : Res (List Char) :=
  loop n (fun j text => do
    let w ← word j
    ok (text ++ w ++ [if j + 1 < n then ',' else '\n'])) text

/-! ## `write_uncertainseries` -/

/-- The search for the variable in a series, `src/nip.c:849-854`. -/
def UncertainSeries.index (u : UncertainSeries K) (v : Nat) : Res (Option Nat) :=
  firstIdx (fun i => do
    let w ← rd u.vars i
    ok (v == w)) 0 u.vars.length

/-- The search in all series, `src/nip.c:846-860`; `none`: the variable is missing in one of them. -/
def indices (v : Nat) : List (UncertainSeries K) → Res (Option (List Nat))
  | [] => ok (some [])
  | u :: l => do
    let i ← u.index v
    match i with
    | none => ok none
    | some i => do
      let r ← indices v l
      ok (r.map (i :: ·))

/-- The lines of one series, `src/nip.c:879-892`. -/
def writeUncertainSeries (fmt : K → List Char) (n : Nat) (u : UncertainSeries K) (index : Nat) (text : List Char) : Res (List Char) := do
  let text ← loop u.length (fun t text => do
    let text ← printFields n (fun i => do
      let row ← rd u.data t
      let r ← rd row index
      let a ← rd r i
      ok (fmt a)) text
    ok (text ++ ['\n'])) text
  ok (text ++ ['\n'])

/-- `write_uncertainseries`, `src/nip.c:826-904`: the code and the contents of the file (`none`: no file is written); `fmt` is `%f`. -/
def writeUncertain (fmt : K → List Char) (x : VarTexts) (set : List (UncertainSeries K)) (v : Nat) : Res (Nat × Option (List Char)) :=
  let n := x.card v
  if ¬ (0 < n ∧ 0 < set.length) then ok (EINVAL, none)
  else do
    let r ← indices v set
    match r with
    | none => ok (EINVAL, none)
    | some is => do
      let text ← printFields n (fun i => x.stateName v (i : Int)) []
      let text ← loop set.length (fun s text => do
        let u ← rd set s
        let i ← rd is s
        writeUncertainSeries fmt n u i text) (text ++ ['\n'])
      ok (0, some text)

/-! ## `nipinference` -/

/-- The loop over the series, `util/nipinference.c:131-139` (without the likelihood). -/
def inferAll (lg : Option (Logs K)) (s : Interface) (v : Nat) (set : List TimeSeries) (m : Model K) : Res (List (UncertainSeries K) × Model K) :=
  set.foldlM (fun (st : List (UncertainSeries K) × Model K) ts => do
    let (r, _, m) ← forwardBackward lg s (fun _ => true) ts [v] st.2
    ok (st.1 ++ [{ vars := [v], length := ts.length, data := r }], m)) ([], m)

/-- The main function of `nipinference`, `util/nipinference.c:87-158`; the argument `set` is what `read_timeseries` gave, `vars` the variables
of the model, `name` the name of the variable of interest.  Results: the exit code and the contents of the output file, if it is written. -/
def nipinference (lg : Logs K) (fmt : K → List Char) (x : VarTexts) (s : Interface) (vars : List Nat) (name : List Char) (set : List TimeSeries)
    (m : Model K) : Res (Int × Option (List Char)) :=
  if set.length < 1 then ok (-1, none)
  else match x.search vars name with
    | none => ok (-1, none)
    | some v => do
      let (ucs, _) ← inferAll (some lg) s v set m
      let (_, text) ← writeUncertain fmt x ucs v
      ok (0, text)

/-! ## `nipmap` -/

/-- The greatest number and its place, `util/nipmap.c:168-175` (and `util/nipmap.c:183-190`). -/
def mapValue (n : Nat) (r : List K) : Res (Nat × K) :=
  loop n (fun j (st : Nat × K) => do
    let m ← rd r j
    ok (if m > st.2 then (j, m) else st)) (0, 0)

/-- The name of the most probable state of the variable number `i` of the series, `util/nipmap.c:165-176` (and `util/nipmap.c:182-191`). -/
def mapName (x : VarTexts) (vars : List Nat) (row : List (List K)) (i : Nat) : Res (List Char) := do
  let v ← rd vars i
  let r ← rd row i
  let (k, _) ← mapValue (x.card v) r
  x.stateName v (k : Int)

/-- The line of a time step, `util/nipmap.c:164-191`.  Without variables the last one would be looked for before the array. -/
def mapRow (x : VarTexts) (vars : List Nat) (row : List (List K)) (text : List Char) : Res (List Char) := do
  let text ← loop (vars.length - 1) (fun i text => do
    let w ← mapName x vars row i
    ok (text ++ w ++ [fieldSeparator])) text
  if vars.length = 0 then ub
  else do
    let w ← mapName x vars row (vars.length - 1)
    ok (text ++ w ++ ['\n'])

/-- The loop over the series, `util/nipmap.c:152-197`. -/
def mapAll (x : VarTexts) (s : Interface) (set : List TimeSeries) (st : List Char × Model K) : Res (List Char × Model K) :=
  set.foldlM (fun (st : List Char × Model K) ts => do
    let vars := ts.hidden.take ts.numHidden.toNat
    let (r, _, m) ← forwardBackward none s (fun _ => true) ts vars st.2
    let text ← loop ts.length (fun t text => do
      let row ← rd r t
      mapRow x vars row text) st.1
    ok (text ++ ['\n'], m)) st

/-- The main function of `nipmap`, `util/nipmap.c:83-214`.  The output file is opened (and emptied) before it turns out that there is
nothing to estimate. -/
def nipmap (x : VarTexts) (s : Interface) (set : List TimeSeries) (m : Model K) : Res (Int × Option (List Char)) :=
  match set with
  | [] => ok (-1, none)
  | ts :: _ =>
    if ts.numHidden = 0 then ok (-1, some [])
    else do
      let v ← rd ts.hidden 0
      let text ← loop (ts.numHidden.toNat - 1) (fun i text => do
        let v ← rd ts.hidden (i + 1)
        ok (text ++ [fieldSeparator] ++ x.symbol v)) (x.symbol v)
      let (text, _) ← mapAll x s set (text ++ ['\n'], m)
      ok (0, some text)

/-! ## `nipnext` -/

/-- The loop over the series, `util/nipnext.c:121-150` (without the likelihood); `fmt` is `%g`. -/
def nextAll (lg : Logs K) (fmt : K → List Char) (x : VarTexts) (s : Interface) (v : Nat) (set : List TimeSeries) (st : List Char × Model K) :
    Res (List Char × Model K) :=
  set.foldlM (fun (st : List Char × Model K) ts => do
    let (r, _, m) ← forwardInference (some lg) s (fun _ => true) ts [v] st.2
    let p ← getPosterior { vars := [v], length := ts.length, data := r } v ((ts.length : Int) - 1)
    let text ← (match p with
      | some p => printRow (x.card v) (fun j => do
          let a ← rd p j
          ok (fmt (lg.log a))) st.1
      | none => ok st.1)
    ok (text, m)) st

/-- The main function of `nipnext`, `util/nipnext.c:79-161`: the exit code and the text printed. -/
def nipnext (lg : Logs K) (fmt : K → List Char) (x : VarTexts) (s : Interface) (vars : List Nat) (name : List Char) (set : List TimeSeries)
    (m : Model K) : Res (Int × List Char) :=
  if set.length < 1 then ok (-1, [])
  else match x.search vars name with
    | none => ok (-1, [])
    | some v => do
      let text ← printRow (x.card v) (fun j => x.stateName v (j : Int)) []
      let (text, _) ← nextAll lg fmt x s v set (text, m)
      ok (0, text)

/-! ## `niplikelihood` -/

/-- One record, `util/niplikelihood.c:116-133`: the numbers `m1` and `m2`, from which the line is printed. -/
def likelihoodStep (marked : Nat → Bool) (ts : TimeSeries) (t : Nat) (st : List (K × K) × Model K) : Res (List (K × K) × Model K) := do
  let (_, m) ← insertStep (fun v => !marked v) ts (t : Int) st.2
  let m ← m.makeConsistent
  let (m1, m) ← m.probMass
  let (_, m) ← insertStep marked ts (t : Int) m
  let m ← m.makeConsistent
  let (m2, m) ← m.probMass
  let m ← m.reset
  let m ← m.usePriors true
  ok (st.1 ++ [(m1, m2)], m)

/-- The loop over the series, `util/niplikelihood.c:111-135`: the numbers by series and record. -/
def likelihoodAll (marked : Nat → Bool) (set : List TimeSeries) (m : Model K) : Res (List (List (K × K)) × Model K) :=
  set.foldlM (fun (st : List (List (K × K)) × Model K) ts => do
    let m ← st.2.reset
    let m ← m.usePriors false
    let (r, m) ← loop ts.length (likelihoodStep marked ts) ([], m)
    ok (st.1 ++ [r], m)) ([], m)

/-- The variables of interest, `util/niplikelihood.c:89-108`: the variables with one of the names; other names are ignored. -/
def markNames (x : VarTexts) (vars : List Nat) (names : List (List Char)) (v : Nat) : Bool :=
  names.any (fun name => x.search vars name == some v)

/-- The main function of `niplikelihood`, `util/niplikelihood.c:81-144`: the numbers that are printed (`none`: the program gave up). -/
def niplikelihood (x : VarTexts) (vars : List Nat) (names : List (List Char)) (set : List TimeSeries) (m : Model K) :
    Res (Option (List (List (K × K)))) :=
  if set.length = 0 then ok none
  else do
    let (r, _) ← likelihoodAll (markNames x vars names) set m
    ok (some r)

/-! ## `nipjoint` -/

/-- The blocks of memory which `nipjoint` frees: the array of variables it allocated, and those of the time series number `n`. -/
inductive Block where
  | chosen
  | hidden (n : Nat)
  | observed (n : Nat)
  | row (n t : Nat)
  | data (n : Nat)
  | series (n : Nat)
  | set
deriving DecidableEq, Repr

/-- `free` of a block that is not the null pointer: to free a block twice is undefined. -/
def freeBlock (b : Block) (freed : List Block) : Res (List Block) := if b ∈ freed then ub else ok (b :: freed)

/-- `free_timeseries`, `src/nip.c:803-815`, of the series number `n`.  Without observed variables `observed` and `data` are null pointers
(`src/nip.c:560-589`). -/
def freeSeries (n : Nat) (ts : TimeSeries) (freed : List Block) : Res (List Block) := do
  let freed ← (if 0 < ts.numObserved then do
      let freed ← loop ts.length (fun t freed => freeBlock (.row n t) freed) freed
      freeBlock (.data n) freed
    else ok freed)
  let freed ← freeBlock (.hidden n) freed
  let freed ← (if 0 < ts.numObserved then freeBlock (.observed n) freed else ok freed)
  freeBlock (.series n) freed

/-- The variables asked for and the block of memory with them, `util/nipjoint.c:101-125`; `none`: a name is unknown. -/
def jointVars (x : VarTexts) (vars : List Nat) (names : List (List Char)) (ts : TimeSeries) : Option (List Nat × Option Block) :=
  if 0 < names.length then (names.mapM (fun name => x.search vars name)).map (fun vs => (vs, some .chosen))
  else if 0 < ts.numHidden then some (ts.hidden.take ts.numHidden.toNat, some (.hidden 0))
  else some (ts.observed.take 1, if 0 < ts.numObserved then some (.observed 0) else none)

/-- What `nipjoint` prints: the variables, their joint distribution, and the two numbers. -/
structure JointReport (K : Type) where
  vars : List Nat
  table : Potential K
  m1 : K
  m2 : K

/-- The main function of `nipjoint`, `util/nipjoint.c:77-153` (`none`: the program gave up).  `nip_fprintf_potential` (`src/nippotential.c:548`)
uses its argument without a check, and the last of the variables is always printed. -/
def nipjoint (x : VarTexts) (vars : List Nat) (names : List (List Char)) (set : List TimeSeries) (m : Model K) : Res (Option (JointReport K)) := do
  let m ← m.usePriors false
  match set with
  | [] => ok none
  | ts :: _ => do
    let m ← m.makeConsistent
    let (m1, m) ← m.probMass
    let (_, m) ← insertStep (fun _ => true) ts 0 m
    let m ← m.makeConsistent
    let (m2, m) ← m.probMass
    match jointVars x vars names ts with
    | none => ok none
    | some (vs, block) => do
      let (p, _) ← m.getJointProbability vs
      if vs.length = 0 then ub
      else match p with
        | none => ub
        | some p => do
          let freed ← (match block with
            | some b => freeBlock b []
            | none => ok [])
          let freed ← loop set.length (fun n freed => do
            let ts ← rd set n
            freeSeries n ts freed) freed
          let _ ← freeBlock .set freed
          ok (some { vars := vs, table := p, m1 := m1, m2 := m2 })

/-! ## `nipconvert` -/

/-- The line of a time step, `util/nipconvert.c:146-164`. -/
def unaryRow (n : Nat) (d : Int) (text : List Char) : Res (List Char) := do
  let record ← (if 0 ≤ d ∧ d < (n : Int) then wr (List.replicate n (0 : Int)) d.toNat 1 else ok (List.replicate n 0))
  let text ← printFields n (fun i => do
    let b ← rd record i
    ok [if b ≠ 0 then '1' else '0']) text
  ok (text ++ ['\n'])

/-- `write_unary_timeseries`, `util/nipconvert.c:60-177`: the code and the contents of the file (`none`: no file is written).  All series are
of the same model. -/
def writeUnary (x : VarTexts) (set : List TimeSeries) : Res (Nat × Option (List Char)) :=
  if set = [] then ok (EINVAL, none)
  else do
    let (observed, n) ← observedUnion set
    if n < 1 then ok (EINVAL, none)
    else do
      let v ← rd (observed.filterMap id) 0
      let text ← printFields (x.card v) (fun i => x.stateName v (i : Int)) []
      let text ← set.foldlM (fun text ts => do
        let text ← loop ts.length (fun t text => do
          let row ← rd ts.data t
          let d ← rd row 0
          unaryRow (x.card v) d text) text
        ok (text ++ ['\n'])) (text ++ ['\n'])
      ok (0, some text)

/-! ## `niptrain` -/

/-- `BATCH_ITERATIONS`, `util/niptrain.c:56`. -/
def batchIterations : Int := 32

/-- The variables of the inner loop of `niptrain`: what the last call of `em_learn` returned, the stopping criterion, whether the next one
starts with random parameters, the learning curve and the state of the model. -/
structure Run (K S : Type) where
  code : Nat
  criterion : Convergence
  random : Bool
  curve : List (WithBot K)
  state : S

/-- The inner loop of `niptrain`, `util/niptrain.c:207-242`, `left` being `left_iterations`; `prepare` is the beginning of `em_learn`
(`src/nip.c:2126-2153`) with or without random parameters.  Writing the model has no effect on it.  An error other than `BAD_LUCK` ends the
program (`none`).  The stopping criterion keeps its value if `em_learn` does not set it.  Simplified: errors while `em_learn` prepares its
arrays are left out; `em_learn` empties the curve if `m_step` returns `BAD_LUCK`, which it never does. -/
def trainBatches {S : Type} (task : EmTask K S) (prepare : Bool → S → S) : (fuel : Nat) → (left : Int) → Run K S → Res (Option (Run K S))
  | 0, _, _ => ub
  | fuel + 1, left, r => do
    let current := if left > batchIterations then batchIterations else left
    let e ← ({ task with maxIterations := current } : EmTask K S).em (max 3 current.toNat) (prepare r.random r.state)
    if ¬ (e.code = 0 ∨ e.code = NIP_ERROR_BAD_LUCK) then ok none
    else
      let left := left - current
      let criterion := e.criterion.getD r.criterion
      let r : Run K S := { code := e.code, criterion := criterion, random := if criterion = .iterations then false else r.random,
                           curve := r.curve ++ e.curve, state := e.state }
      let left := if criterion = .delta then 0 else left
      if left > 0 then trainBatches task prepare fuel left r else ok (some r)

end Nip
