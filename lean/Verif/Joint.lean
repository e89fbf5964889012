import Verif.JoinTree

/-!
# Model of the joint probability of several variables: `nip_gather_joint_probability` and `get_joint_probability`
-/

namespace Nip

open Res

variable {K : Type} [Field K] [LinearOrder K]

namespace JTree

/-- What is done for the neighbour `c` behind the separator `s`, `src/nipjointree.c:1267-1319`.  `deeper` is the recursive call for a
clique and the variables found in the separator.  The first component of the result is `none` if the function gives up (null pointer).
A null pointer returned by `nip_mapper` is an array without elements here. -/
def gatherBranch (deeper : JTree K → Nat → List Nat → Res (Option (Potential K) × JTree K)) (vars prodVars : List Nat) (s c : Nat)
    (prod : Potential K) (t : JTree K) : Res (Option (Potential K) × JTree K) := do
  let sp ← rd t.sepsets s
  let (_, m) ← mapper prodVars sp.vars
  let (e, prod) ← Potential.update none (some sp.new) prod (m.getD [])
  if e ≠ 0 then ok (none, t)
  else do
    let (mi, n) ← variableIsect sp.vars vars
    if n = 0 then ok (none, t)
    else do
      let mi ← takeVars mi n
      let (msg, t) ← deeper t c mi
      let (mv, nmsg) ← variableUnion vars mi
      let mv ← takeVars mv nmsg
      let (_, m) ← mapper prodVars mv
      let (e, prod) ← Potential.update msg none prod (m.getD [])
      if e ≠ 0 then ok (none, t) else ok (some prod, t)

/-- The loop over both directions of a separator, `src/nipjointree.c:1259-1320`.  Nothing more is done after giving up. -/
def gatherSepset (deeper : JTree K → Nat → List Nat → Res (Option (Potential K) × JTree K)) (vars prodVars : List Nat)
    (st : Option (Potential K) × JTree K) (s : Nat) : Res (Option (Potential K) × JTree K) :=
  match st.1 with
  | none => ok st
  | some prod => do
    let sp ← rd st.2.sepsets s
    let m1 ← st.2.marked sp.first
    let st ← (if !m1 then gatherBranch deeper vars prodVars s sp.first prod st.2 else ok st)
    match st.1 with
    | none => ok st
    | some prod => do
      let m2 ← st.2.marked sp.second
      if !m2 then gatherBranch deeper vars prodVars s sp.second prod st.2 else ok st

/-- The end of `nip_gather_joint_probability`, `src/nipjointree.c:1326-1359`: sum over the variables not wanted.  `cards` is the array
`cardinality`, which has as many places as there are variables in the product. -/
def gatherResult (card : Nat → Nat) (vars isect : List Nat) (cards : List Nat) (prod : Potential K) : Res (Option (Potential K)) :=
  if cards.length = vars.length + isect.length then ok (some prod)
  else do
    let c ← loop vars.length (fun i c => do
      let v ← rd vars i
      wr c i (card v)) cards
    let c ← loop isect.length (fun i c => do
      let v ← rd isect i
      wr c (vars.length + i) (card v)) c
    let sum ← Potential.new c ((vars.length + isect.length : Nat) : Int) none
    match sum with
    | none => ok none
    | some sum => do
      let (e, sum) ← Potential.generalMarginalise prod sum (List.range (vars.length + isect.length))
      if e ≠ 0 then ok none else ok (some sum)

/-- `nip_gather_joint_probability`, `src/nipjointree.c:1165-1366`.  `fuel` bounds the depth of the recursion; running out of it is reported
as `ub`.  `none` is the null pointer.  The null pointers of `vars` and `start` are not modelled. -/
def gather (card : Nat → Nat) (vars : List Nat) : (fuel : Nat) → JTree K → (start : Nat) → (isect : List Nat) →
    Res (Option (Potential K) × JTree K)
  | 0, _, _, _ => ub
  | fuel + 1, t, start, isect =>
    if vars.length = 0 then do
      let p ← Potential.new [] 0 none
      ok (p, t)
    else do
      let cl ← rd t.cliques start
      let t ← t.setMark start true
      let (pv, nprod) ← variableUnion vars cl.vars
      let prodVars ← takeVars pv nprod
      let cards := prodVars.map card
      let prod ← Potential.new cards (nprod : Int) none
      let (_, m) ← mapper prodVars cl.vars
      match prod, m with
      | some prod, some m => do
        let (e, prod) ← Potential.update (some cl.p) none prod m
        if e ≠ 0 then ok (none, t)
        else do
          let (prod, t) ← cl.sepsets.foldlM (gatherSepset (gather card vars fuel) vars prodVars) (some prod, t)
          match prod with
          | none => ok (none, t)
          | some prod => do
            let r ← gatherResult card vars isect cards prod
            ok (r, t)
      | _, _ => ok (none, t)

end JTree

/-- `get_joint_probability`, `src/nip.c:2323-2344`. -/
def Model.getJointProbability (m : Model K) (vars : List Nat) : Res (Option (Potential K) × Model K) := do
  let t ← m.tree.unmarkAll
  let (p, t) ← JTree.gather (fun v => (m.var v).card) vars (t.cliques.length + 1) t 0 []
  match p with
  | none => ok (none, { m with tree := t })
  | some p => do
    let p ← p.normalise
    ok (some p, { m with tree := t })

end Nip
