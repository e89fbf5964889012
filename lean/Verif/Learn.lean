import Verif.Dynamic
import Verif.EmLoop

/-!
# Model of parameter learning of `src/nip.c`: `m_step`, `e_step` and `em_learn`

The array `parameters` of tables, one for each variable in the order of the variables of the model, is a list.  `PARAMETER_EPSILON` is not
defined (`src/nip.h:58`).  Memory is always available.
-/

namespace Nip

open Res Spec

variable {K : Type} [Field K] [LinearOrder K]

/-- `nip_find_family_mapping`, `src/nipjointree.c:963-1007`: the places in the clique of the child and of its parents.  The result is kept in
the variable and used again in C; since the variables of cliques and the parents never change, computing it again gives the same.  `calloc` makes
the array zero. -/
def familyMapping (cvars : List Nat) (child : Nat) (parents : List Nat) : Res (List Nat) := do
  let k ← findVar child cvars cvars.length
  let r ← match k with
    | some i => wr (List.replicate (parents.length + 1) 0) 0 i
    | none => ok (List.replicate (parents.length + 1) 0)
  if 0 < parents.length then do
    let st ← loop cvars.length (fun i (st : Nat × List Nat) =>
      if st.1 = parents.length then ok st
      else do
        let v ← rd cvars i
        let j ← findVar v parents parents.length
        match j with
        | some j => do
          let r ← wr st.2 (j + 1) i
          ok (st.1 + 1, r)
        | none => ok st) (0, r)
    ok st.2
  else ok r

/-- The round of the last loop of `m_step` for variable `v`, `src/nip.c:2047-2072`.  A missing clique or prior would be a null pointer. -/
def enterParameter (m : Model K) (v : Nat) (p : Potential K) : Res (Nat × Model K) :=
  if 0 < (m.var v).parents.length then do
    let (c, m) ← m.findFamily v
    match c with
    | none => ub
    | some c => do
      let cl ← rd m.tree.cliques c
      let mp ← familyMapping cl.vars v (m.var v).parents
      let (j, q) ← Potential.init p cl.p (some mp)
      let (k, o) ← Potential.init p cl.orig (some mp)
      let cs ← wr m.tree.cliques c { cl with p := q, orig := o }
      ok (if j ≠ 0 ∨ k ≠ 0 then NIP_ERROR_GENERAL else 0, { m with tree := { m.tree with cliques := cs } })
  else
    match (m.var v).prior with
    | none => ub
    | some r => do
      let (_, r) ← Potential.totalMarginalise p r 0
      ok (0, m.setVar v { m.var v with prior := some r })

/-- The first loop of `m_step`, `src/nip.c:2041-2045`. -/
def normaliseParameters (n : Nat) (params : List (Potential K)) : Res (List (Potential K)) :=
  loop n (fun i (ps : List (Potential K)) => do
    let p ← rd ps i
    let p ← p.normaliseCpd
    wr ps i p) params

/-- `m_step`, `src/nip.c:2019-2076`: code, parameters and model. -/
def mStep (params : List (Potential K)) (m : Model K) : Res (Nat × List (Potential K) × Model K) := do
  let params ← normaliseParameters m.varList.length params
  let m ← m.totalReset
  let (e, m) ← loop m.varList.length (fun i (st : Nat × Model K) =>
    if st.1 ≠ 0 then ok st
    else do
      let v ← rd st.2.varList i
      let p ← rd params i
      enterParameter st.2 v p) (0, m)
  ok (e, params, m)

/-- One round of the loop over variables of `e_step`, `src/nip.c:1937-1978`, for variable `i`; the state is the model, the parameters and the
tables `results`.  A failed assertion is undefined behaviour. -/
def countFamily (t i : Nat) (st : Model K × List (Potential K) × List (Potential K)) : Res (Model K × List (Potential K) × List (Potential K)) := do
  let v ← rd st.1.varList i
  if 0 < t ∧ (st.1.var v).oldOutgoing then ok st
  else do
    let (c, m) ← st.1.findFamily v
    match c with
    | none => ub
    | some c => do
      let cl ← rd m.tree.cliques c
      let mp ← familyMapping cl.vars v (m.var v).parents
      let r ← rd st.2.2 i
      let (_, r) ← Potential.generalMarginalise cl.p r mp
      let r ← r.normalise
      let results ← wr st.2.2 i r
      let p ← rd st.2.1 i
      let (_, p) ← Potential.sumInto p r
      let params ← wr st.2.1 i p
      ok (m, params, results)

/-- The loop over variables of `e_step`, `src/nip.c:1936-1979`. -/
def countFamilies (t : Nat) (st : Model K × List (Potential K) × List (Potential K)) : Res (Model K × List (Potential K) × List (Potential K)) :=
  loop st.1.varList.length (countFamily t) st

/-- The part of a round of the forward phase of `e_step` that enters data, `src/nip.c:1825-1847`: whether all is well, and the model and the
likelihood. -/
def weighStep (g : Logs K) (marked : Nat → Bool) (ts : TimeSeries) (t : Nat) (st : Model K × K) : Res (Bool × Model K × K) := do
  let m ← st.1.makeConsistent
  let (m1, m) ← m.probMass
  let (_, m) ← insertStep marked ts (t : Int) m
  let m ← m.makeConsistent
  let (m2, m) ← m.probMass
  let ll := if 0 < m1 ∧ 0 < m2 then st.2 + (g.log m2 - g.log m1) else st.2
  ok (decide (¬ (m1 ≤ 0 ∨ m2 ≤ 0 ∨ 0 < ll)), m, ll)

/-- One round of the forward phase of `e_step`, `src/nip.c:1808-1888`; the first component is the code, and after an error nothing more
happens. -/
def countForward (g : Logs K) (s : Interface) (marked : Nat → Bool) (ts : TimeSeries) (t : Nat) (st : Nat × Smoother K) : Res (Nat × Smoother K) :=
  if st.1 ≠ 0 then ok st
  else do
    let m ← arriveStored s t st.2.model st.2.messages
    let (fine, m, ll) ← weighStep g marked ts t (m, st.2.ll)
    if fine then do
      let a ← rd st.2.messages t
      let a ← startPass s true m a
      let messages ← wr st.2.messages t a
      let m ← m.reset
      let m ← m.usePriors (decide (1 < ts.length))
      ok (0, { model := m, messages := messages, ll := ll })
    else ok (NIP_ERROR_BAD_LUCK, { model := m, messages := st.2.messages, ll := ll })

/-- The variables of the backward phase of `e_step`. -/
structure Counter (K : Type) where
  model : Model K
  messages : List (Potential K)
  params : List (Potential K)
  results : List (Potential K)

/-- One round of the backward phase of `e_step`, `src/nip.c:1895-2000`. -/
def countBackward (s : Interface) (marked : Nat → Bool) (ts : TimeSeries) (t : Nat) (st : Counter K) : Res (Counter K) := do
  let m ← smoothAbsorb s marked ts t st.model st.messages
  let (m, params, results) ← countFamilies t (m, st.params, st.results)
  let (m, messages) ← smoothLeave s t m st.messages
  ok { model := m, messages := messages, params := params, results := results }

/-- The tables `results` of `e_step`, `src/nip.c:1764-1770`. -/
def newResults (params : List (Potential K)) : Res (List (Potential K)) :=
  params.foldlM (fun (rs : List (Potential K)) p => do
    let r : Option (Potential K) ← Potential.new p.card (p.dim : Int) none
    match r with
    | some r => ok (rs ++ [r])
    | none => ub) []

/-- `e_step`, `src/nip.c:1726-2016`: code, parameters, log likelihood and model. -/
def eStep (g : Logs K) (s : Interface) (marked : Nat → Bool) (ts : TimeSeries) (params : List (Potential K)) (m : Model K) :
    Res (Nat × List (Potential K) × K × Model K) := do
  let results ← newResults params
  let messages ← newMessages s m ts.length
  let m ← m.reset
  let m ← m.usePriors false
  let (e, st) ← loop ts.length (countForward g s marked ts) (0, { model := m, messages := messages, ll := 0 })
  if e ≠ 0 then ok (e, params, st.ll, st.model)
  else do
    let c ← loopDown ts.length (countBackward s marked ts) { model := st.model, messages := st.messages, params := params, results := results }
    ok (0, c.params, st.ll, c.model)

/-- The tables of `em_learn`, `src/nip.c:2109-2127`: the child is the first dimension. -/
def newParameters (m : Model K) : Res (List (Potential K)) :=
  m.varList.foldlM (fun (ps : List (Potential K)) v => do
    let card := (m.var v).card :: (m.var v).parents.map (fun u => (m.var u).card)
    let p : Option (Potential K) ← Potential.new card (card.length : Int) none
    match p with
    | some p => ok (ps ++ [p])
    | none => ub) []

/-- The start of learning from random numbers, `src/nip.c:2133-2137` and `nip_random_potential`, `src/nippotential.c:222-230`; `rand i j` is the
`j`-th number drawn for the table of variable `i`. -/
def randomParameters (rand : Nat → Nat → K) (params : List (Potential K)) : List (Potential K) :=
  params.mapIdx (fun i p => { p with data := p.data.mapIdx (fun j _ => rand i j) })

/-- The start of learning from the model, `src/nip.c:2138-2157`; `none` is the error for a missing clique. -/
def presentParameters (params : List (Potential K)) (m : Model K) : Res (Option (List (Potential K)) × Model K) :=
  loop m.varList.length (fun i (st : Option (List (Potential K)) × Model K) =>
    match st.1 with
    | none => ok st
    | some ps => do
      let v ← rd st.2.varList i
      let (c, m) ← st.2.findFamily v
      match c with
      | none => ok (none, m)
      | some c => do
        let cl ← rd m.tree.cliques c
        let mp ← familyMapping cl.vars v (m.var v).parents
        let p ← rd ps i
        let (_, p) ← Potential.generalMarginalise cl.orig p mp
        let ps ← wr ps i p
        ok (some ps, m)) (some params, m)

/-- The E-steps of one round, `src/nip.c:2189-2219`: code, parameters, sum of likelihoods and model.  Failed assertions end the program. -/
def eSteps (g : Logs K) (s : Interface) (marked : Nat → Bool) (series : List TimeSeries) (params : List (Potential K)) (m : Model K) :
    Res (Nat × List (Potential K) × K × Model K) :=
  loop series.length (fun n (st : Nat × List (Potential K) × K × Model K) =>
    if st.1 ≠ 0 then ok st
    else do
      let ts ← rd series n
      let (e, params, probe, m) ← eStep g s marked ts st.2.1 st.2.2.2
      if e ≠ 0 then ok (e, params, st.2.2.1, m)
      else if 0 < probe then ub
      else ok (0, params, st.2.2.1 + probe, m)) (0, params, 0, m)

/-- What the caller of `em_learn` gets, and the parameters at the end (which are freed). -/
structure Learned (K : Type) where
  code : Nat
  criterion : Option Convergence
  curve : List K
  params : List (Potential K)
  model : Model K

/-- The `do` loop of `em_learn`, `src/nip.c:2172-2264`; `ll` is the likelihood of the round before, `i` the number of completed rounds.  The
caller collects the learning curve (not divided by the number of time steps here), and its function `em_progress` succeeds.  Numbers are finite. -/
def learnLoop (g : Logs K) (s : Interface) (marked : Nat → Bool) (series : List TimeSeries) (steps : Nat) (maxIterations : Int) (threshold : K) :
    (fuel i : Nat) → (ll : K) → (curve : List K) → List (Potential K) → Model K → Res (Learned K)
  | 0, _, _, _, _, _ => ub
  | fuel + 1, i, old, curve, params, m => do
    let (e, params, m) ← mStep params m
    if e ≠ 0 then ok { code := e, criterion := none, curve := [], params := params, model := m }
    else do
      let (e, params, ll, m) ← eSteps g s marked series (params.map (fun p => p.uniform 1)) m
      if e ≠ 0 then
        ok { code := e, criterion := none, curve := if e ≠ NIP_ERROR_BAD_LUCK then [] else curve, params := params, model := m }
      else if old > ll + (steps : K) * threshold ∨ ll > 0 then
        ok { code := NIP_ERROR_BAD_LUCK, criterion := none, curve := curve ++ [ll], params := params, model := m }
      else if i + 1 ≥ minEmIterations then
        if ll - old > (steps : K) * threshold then
          if ((i + 1 : Nat) : Int) ≥ maxIterations then
            ok { code := 0, criterion := some .iterations, curve := curve ++ [ll], params := params, model := m }
          else learnLoop g s marked series steps maxIterations threshold fuel (i + 1) ll (curve ++ [ll]) params m
        else ok { code := 0, criterion := some .delta, curve := curve ++ [ll], params := params, model := m }
      else learnLoop g s marked series steps maxIterations threshold fuel (i + 1) ll (curve ++ [ll]) params m

/-- `em_learn`, `src/nip.c:2082-2272`, for at least one series and a model; `rand = none` stands for `have_random_init = 0`.  A missing clique
gives the code `NIP_ERROR_OUTOFMEMORY` (`ENOMEM`) and leaves the learning curve as it is. -/
def emLearn (g : Logs K) (s : Interface) (marked : Nat → Bool) (series : List TimeSeries) (rand : Option (Nat → Nat → K)) (maxIterations : Int)
    (threshold : K) (fuel : Nat) (m : Model K) : Res (Learned K) := do
  let params ← newParameters m
  let (params, m) ← match rand with
    | some r => ok (some (randomParameters r params), m)
    | none => presentParameters params m
  match params with
  | none => ok { code := ENOMEM, criterion := none, curve := [], params := [], model := m }
  | some params =>
    learnLoop g s marked series ((series.map (fun ts => ts.length)).sum) maxIterations threshold fuel 0 g.lowest [] params m

end Nip
