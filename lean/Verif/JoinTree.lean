import Verif.Potential
import Verif.Variable
import Verif.Triangulate

/-!
# Model of `src/nipjointree.c` and of the parts of `src/nip.c` that drive it

Cliques and separators are objects with an address: their places in the lists `cliques` and `sepsets` of a `JTree`.  Variables are
addressed by their identities.  A function that modifies objects takes and returns the whole tree (or model).  An error code is
returned together with the state in which the objects were left.
-/

namespace Nip

open Res

/-- `nip_clique_struct`, `src/nipjointree.h:43-50`.  The linked list of separators is the list of their addresses, first element
first; the unused `num_of_sepsets` is left out.  `mark` is `mark == NIP_MARK_ON`. -/
structure Clique (K : Type) where
  vars : List Nat
  p : Potential K
  orig : Potential K
  sepsets : List Nat
  mark : Bool
deriving Repr, DecidableEq

/-- `nip_sepset_struct`, `src/nipjointree.h:56-62`; the neighbours are addresses of cliques. -/
structure Sepset (K : Type) where
  vars : List Nat
  old : Potential K
  new : Potential K
  first : Nat
  second : Nat
deriving Repr, DecidableEq

/-- The cliques and the confirmed separators of a model. -/
structure JTree (K : Type) where
  cliques : List (Clique K)
  sepsets : List (Sepset K)
deriving Repr, DecidableEq

variable {K : Type} [Zero K] [One K] [Add K] [Sub K] [Mul K] [Div K] [LinearOrder K]

/-- `nip_new_clique`, `src/nipjointree.c:135-170`, for variables already in order: tables of ones, no separators, not marked.
`none` is the null pointer. -/
def Clique.ofSorted (card : Nat → Nat) (vs : List Nat) : Res (Option (Clique K)) := do
  let cards := vs.map card
  let p ← Potential.new cards (cards.length : Int) none
  let o ← Potential.new cards (cards.length : Int) none
  match p, o with
  | some p, some o => ok (some { vars := vs, p := p, orig := o, sepsets := [], mark := false })
  | _, _ => ok none

/-- `nip_new_clique`, `src/nipjointree.c:75-173`. -/
def Clique.new (card : Nat → Nat) (vars : List Nat) : Res (Option (Clique K)) := do
  let vs ← sortClique vars
  Clique.ofSorted card vs

/-- `nip_new_sepset`, `src/nipjointree.c:264-320`: `a` and `b` are the addresses of the neighbours with variables `va`, `vb`. -/
def Sepset.make (card : Nat → Nat) (a b : Nat) (va vb : List Nat) : Res (Option (Sepset K)) := do
  let (vs, n) ← variableIsect va vb
  let vs ← takeVars vs n
  let cards := vs.map card
  let o ← Potential.new cards (n : Int) none
  let w ← Potential.new cards (n : Int) none
  match o, w with
  | some o, some w => ok (some { vars := vs, old := o, new := w, first := a, second := b })
  | _, _ => ok none

namespace JTree

/-- `c->mark = ...`. -/
def setMark (t : JTree K) (c : Nat) (b : Bool) : Res (JTree K) := do
  let cl ← rd t.cliques c
  let cs ← wr t.cliques c { cl with mark := b }
  ok { t with cliques := cs }

/-- `nip_clique_marked`, `src/nipjointree.c:490-494`. -/
def marked (t : JTree K) (c : Nat) : Res Bool := do
  let cl ← rd t.cliques c
  ok cl.mark

/-- `for(i = 0; i < ncliques; i++) nip_unmark_clique(cliques[i]);` (`src/nipjointree.c:480-484`). -/
def unmarkAll (t : JTree K) : Res (JTree K) := loop t.cliques.length (fun i t => t.setMark i false) t

/-- `nip_confirm_sepset`, `src/nipjointree.c:210-233`: the separator becomes part of the tree, at the end of the list of objects, and is
put first in the lists of both neighbours. -/
def confirm (t : JTree K) (s : Sepset K) : Res (JTree K) := do
  let k := t.sepsets.length
  let c1 ← rd t.cliques s.first
  let cs ← wr t.cliques s.first { c1 with sepsets := k :: c1.sepsets }
  let c2 ← rd cs s.second
  let cs ← wr cs s.second { c2 with sepsets := k :: c2.sepsets }
  ok { cliques := cs, sepsets := t.sepsets ++ [s] }

/-- The neighbour behind separator `s` that the traversals visit next: the first neighbour if it is not marked, else the second one if
it is not marked, else none (`src/nipjointree.c:536-541` and many similar places). -/
def next (t : JTree K) (s : Nat) : Res (Option Nat) := do
  let sp ← rd t.sepsets s
  let m1 ← t.marked sp.first
  if !m1 then ok (some sp.first)
  else do
    let m2 ← t.marked sp.second
    if !m2 then ok (some sp.second) else ok none

/-- `nip_cliques_connected`, `src/nipjointree.c:515-546`.  `fuel` bounds the depth of the recursion; running out of it is reported as
`ub`. -/
def connected : (fuel : Nat) → JTree K → (one two : Nat) → Res (Bool × JTree K)
  | 0, _, _, _ => ub
  | fuel + 1, t, one, two => do
    let c ← rd t.cliques one
    let t ← t.setMark one true
    if one = two then ok (true, t)
    else
      c.sepsets.foldlM (fun (st : Bool × JTree K) s => do
        if st.1 then ok st
        else do
          let n ← st.2.next s
          match n with
          | some d => connected fuel st.2 d two
          | none => ok st) (false, t)

/-- `nip_message_pass`, `src/nipjointree.c:645-678`: the message from `c1` through separator `s` to `c2`.  The arrays of variables have
as many elements as the potentials have dimensions. -/
def messagePass (t : JTree K) (c1 s c2 : Nat) : Res (Nat × JTree K) := do
  let sp ← rd t.sepsets s
  let cl1 ← rd t.cliques c1
  -- temp = s->old; s->old = s->new; s->new = temp;
  let sp := { sp with old := sp.new, new := sp.old }
  let (_, m1) ← mapper cl1.vars sp.vars
  let (e, n) ← Potential.generalMarginalise cl1.p sp.new (m1.getD [])
  let sp := { sp with new := n }
  let ss ← wr t.sepsets s sp
  let t := { t with sepsets := ss }
  if e ≠ 0 then ok (e, t)
  else do
    let cl2 ← rd t.cliques c2
    let (_, m2) ← mapper cl2.vars sp.vars
    let (e, p) ← Potential.update (some sp.new) (some sp.old) cl2.p (m2.getD [])
    let cs ← wr t.cliques c2 { cl2 with p := p }
    ok (e, { t with cliques := cs })

/-- `nip_distribute_evidence`, `src/nipjointree.c:549-596`.  A `return` out of a loop is a non-zero error code in the state of the
loop. -/
def distribute : (fuel : Nat) → JTree K → (c : Nat) → Res (Nat × JTree K)
  | 0, _, _ => ub
  | fuel + 1, t, c => do
    let cl ← rd t.cliques c
    let t ← t.setMark c true
    let st ← cl.sepsets.foldlM (fun (st : Nat × JTree K) s => do
      if st.1 ≠ 0 then ok st
      else do
        let n ← st.2.next s
        match n with
        | some d => st.2.messagePass c s d
        | none => ok st) (0, t)
    cl.sepsets.foldlM (fun (st : Nat × JTree K) s => do
      if st.1 ≠ 0 then ok st
      else do
        let n ← st.2.next s
        match n with
        | some d => distribute fuel st.2 d
        | none => ok st) st

/-- `nip_collect_evidence`, `src/nipjointree.c:599-642`; null pointers are `none`. -/
def collect : (fuel : Nat) → JTree K → (c1 s12 : Option Nat) → (c2 : Nat) → Res (Nat × JTree K)
  | 0, _, _, _, _ => ub
  | fuel + 1, t, c1, s12, c2 => do
    let cl ← rd t.cliques c2
    let t ← t.setMark c2 true
    let st ← cl.sepsets.foldlM (fun (st : Nat × JTree K) s => do
      if st.1 ≠ 0 then ok st
      else do
        let sp ← rd st.2.sepsets s
        let m1 ← st.2.marked sp.first
        let st ← (if !m1 then collect fuel st.2 (some c2) (some s) sp.first else ok st)
        if st.1 ≠ 0 then ok st
        else do
          let m2 ← st.2.marked sp.second
          if !m2 then collect fuel st.2 (some c2) (some s) sp.second else ok st) (0, t)
    if st.1 ≠ 0 then ok st
    else
      match c1, s12 with
      | some c1, some s12 => st.2.messagePass c2 s12 c1
      | _, _ => ok st

/-- `nip_join_tree_dfs`, `src/nipjointree.c:1075-1120`.  The number behind the pointer `ptr` is part of the state.  Error codes of the
recursive calls are ignored by the code. -/
def dfs (cFun sFun : Nat → JTree K × K → Res (Nat × (JTree K × K))) :
    (fuel : Nat) → JTree K × K → (start : Nat) → Res (Nat × (JTree K × K))
  | 0, _, _ => ub
  | fuel + 1, st, start => do
    let cl ← rd st.1.cliques start
    let t ← st.1.setMark start true
    let (e, st) ← cFun start (t, st.2)
    if e ≠ 0 then ok (e, st)
    else
      cl.sepsets.foldlM (fun (r : Nat × (JTree K × K)) s => do
        if r.1 ≠ 0 then ok r
        else do
          let n ← r.2.1.next s
          match n with
          | some d => do
            let (e, st) ← sFun s r.2
            if e ≠ 0 then ok (e, st)
            else do
              let (_, st) ← dfs cFun sFun fuel st d
              ok (0, st)
          | none => ok r) (0, st)

/-- `nip_retract_clique`, `src/nipjointree.c:1056-1063`. -/
def retractClique (c : Nat) (st : JTree K × K) : Res (Nat × (JTree K × K)) := do
  let cl ← rd st.1.cliques c
  let (e, p) ← Potential.retract cl.p cl.orig
  let cs ← wr st.1.cliques c { cl with p := p }
  ok (e, ({ st.1 with cliques := cs }, st.2))

/-- `nip_retract_sepset`, `src/nipjointree.c:1066-1072`. -/
def retractSepset (s : Nat) (st : JTree K × K) : Res (Nat × (JTree K × K)) := do
  let sp ← rd st.1.sepsets s
  let ss ← wr st.1.sepsets s { sp with old := sp.old.uniform 1, new := sp.new.uniform 1 }
  ok (0, ({ st.1 with sepsets := ss }, st.2))

/-- `nip_clique_mass`, `src/nipjointree.c:1123-1130`. -/
def cliqueMass (c : Nat) (st : JTree K × K) : Res (Nat × (JTree K × K)) := do
  let cl ← rd st.1.cliques c
  let m ← loop cl.p.size (fun i m => do
    let a ← rd cl.p.data i
    ok (m + a)) 0
  ok (0, (st.1, st.2 + m))

/-- `nip_neg_sepset_mass`, `src/nipjointree.c:1132-1139`. -/
def negSepsetMass (s : Nat) (st : JTree K × K) : Res (Nat × (JTree K × K)) := do
  let sp ← rd st.1.sepsets s
  let m ← loop sp.new.size (fun i m => do
    let a ← rd sp.new.data i
    ok (m + a)) 0
  ok (0, (st.1, st.2 - m))

/-- `nip_probability_mass`, `src/nipjointree.c:1141-1155`: the mass and the tree (in which only marks changed). -/
def probabilityMass (t : JTree K) : Res (K × JTree K) := do
  let t ← t.unmarkAll
  let (_, st) ← dfs cliqueMass negSepsetMass (t.cliques.length + 1) (t, 0) 0
  ok (st.2, st.1)

/-- `nip_clique_var_index`, `src/nipjointree.c:919-933` (non-null arguments); `none` is `-1`.  With no variables at all the first
comparison reads outside the array. -/
def varIndex (t : JTree K) (c v : Nat) : Res (Option Nat) := do
  let cl ← rd t.cliques c
  if cl.vars.length = 0 then ub
  else findVar v cl.vars cl.vars.length

/-- `nip_find_clique`, `src/nipjointree.c:1010-1033`; `none` is the null pointer. -/
def findClique (t : JTree K) (vars : List Nat) : Res (Option Nat) :=
  firstIdx (fun i => do
    let cl ← rd t.cliques i
    let n ← countCommon vars cl.vars
    ok (n == vars.length)) 0 t.cliques.length

/-- `nip_marginalise_clique`, `src/nipjointree.c:744-757`: error code and new contents of `r`. -/
def marginaliseClique (t : JTree K) (c v : Nat) (r : List K) : Res (Nat × List K) := do
  let i ← t.varIndex c v
  match i with
  | none => ok (EINVAL, r)
  | some i => do
    let cl ← rd t.cliques c
    Potential.totalMarginalise cl.p r (i : Int)

end JTree

/-- The fields of `nip_variable_struct` (`src/nipvariable.h:52-83`) used by the model functions below.  Null pointers are `none`;
`oldOutgoing` and `outgoing` are bits of `interface_status`; `familyClique` is an address. -/
structure VarRec (K : Type) where
  card : Nat
  parents : List Nat
  likelihood : List K
  prior : Option (List K)
  priorEntered : Bool
  familyClique : Option Nat
  oldOutgoing : Bool
  outgoing : Bool
deriving Repr, DecidableEq

/-- The parts of `nip_model_struct` (`src/nip.h:71-104`) used by the model functions, with the store of variables `var` (by
identity).  `varList` is the array `variables`; `independent` are the variables without parents. -/
structure Model (K : Type) where
  tree : JTree K
  var : Nat → VarRec K
  varList : List Nat
  independent : List Nat

namespace Model

/-- Assignment to a field of the variable with identity `v`. -/
def setVar (m : Model K) (v : Nat) (r : VarRec K) : Model K := { m with var := Function.update m.var v r }

/-- `nip_find_family`, `src/nipjointree.c:936-960`: the clique (`none` is the null pointer) is remembered in the variable. -/
def findFamily (m : Model K) (v : Nat) : Res (Option Nat × Model K) :=
  match (m.var v).familyClique with
  | some c => ok (some c, m)
  | none => do
    let found ← m.tree.findClique ((m.var v).parents ++ [v])
    ok (found, m.setVar v { m.var v with familyClique := found })

/-- The mapping built by `nip_init_clique`, `src/nipjointree.c:704-716`: places in the clique of the parents and the child, in the order
of the clique.  `n` is the dimensionality of the potential. -/
def initMapping (cvars : List Nat) (child : Nat) (parents : List Nat) (n : Nat) : Res (List Nat) := do
  let r ← loop cvars.length (fun i (st : List Nat × Nat) => do
    if st.2 = n then ok st
    else do
      let var ← rd cvars i
      let st ← loop (n - 1) (fun j (st : List Nat × Nat) => do
        let pj ← rd parents j
        if var = pj then do
          let m ← wr st.1 st.2 i
          ok (m, st.2 + 1)
        else ok st) st
      if var = child then do
        let m ← wr st.1 st.2 i
        ok (m, st.2 + 1)
      else ok st) (List.replicate n 0, 0)
  ok r.1

/-- `nip_init_clique`, `src/nipjointree.c:682-741`. -/
def initClique (m : Model K) (c child : Nat) (p : Potential K) (transient : Bool) : Res (Nat × Model K) := do
  let cl ← rd m.tree.cliques c
  let mapping ← (if p.dim < cl.p.dim then do
      let mp ← initMapping cl.vars child (m.var child).parents p.dim
      ok (some mp)
    else ok none)
  let (e, q) ← Potential.init p cl.p mapping
  let cs ← wr m.tree.cliques c { cl with p := q }
  if e ≠ 0 then ok (e, { m with tree := { m.tree with cliques := cs } })
  else if transient then ok (0, { m with tree := { m.tree with cliques := cs } })
  else do
    let (e, o) ← Potential.init p cl.orig mapping
    let cs ← wr m.tree.cliques c { cl with p := q, orig := o }
    ok (e, { m with tree := { m.tree with cliques := cs } })

/-- Multiplying evidence into a clique table: the call of `nip_update_evidence` at index `nip_clique_var_index(c, v)`.  A negative index
makes `nip_update_evidence` read outside an array. -/
def multiplyEvidence (m : Model K) (c v : Nat) (num : List K) (den : Option (List K)) : Res (Model K) := do
  let i ← m.tree.varIndex c v
  match i with
  | none => ub
  | some i => do
    let cl ← rd m.tree.cliques c
    let p ← Potential.updateEvidence num den cl.p i
    let cs ← wr m.tree.cliques c { cl with p := p }
    ok { m with tree := { m.tree with cliques := cs } }

/-- `nip_global_retraction`, `src/nipjointree.c:760-786`.  A variable without a family clique makes the code read through a null
pointer.  (`nip_update_evidence` fails only for null pointers.) -/
def globalRetraction (m : Model K) : Res (Model K) := do
  let t ← m.tree.unmarkAll
  let (_, st) ← JTree.dfs JTree.retractClique JTree.retractSepset (t.cliques.length + 1) (t, 0) 0
  let m := { m with tree := st.1 }
  m.varList.foldlM (fun (m : Model K) v => do
    let (c, m) ← m.findFamily v
    match c with
    | none => ub
    | some c => m.multiplyEvidence c v (m.var v).likelihood none) m

/-- `nip_update_likelihood`, `src/nipvariable.c:273-283`. -/
def updateLikelihood (m : Model K) (v : Nat) (likelihood : List K) : Res (Model K) := do
  let l ← loop (m.var v).card (fun i l => do
    let x ← rd likelihood i
    wr l i x) (m.var v).likelihood
  ok (m.setVar v { m.var v with likelihood := l })

/-- `nip_reset_likelihood`, `src/nipvariable.c:286-295`. -/
def resetLikelihood (m : Model K) (v : Nat) : Res (Model K) := do
  let l ← loop (m.var v).card (fun i l => wr l i 1) (m.var v).likelihood
  ok (m.setVar v { m.var v with likelihood := l })

/-- `nip_enter_evidence`, `src/nipjointree.c:828-870` (non-null arguments). -/
def enterEvidence (m : Model K) (v : Nat) (evidence : List K) : Res (Nat × Model K) := do
  let (c, m) ← m.findFamily v
  match c with
  | none => ok (EINVAL, m)
  | some c => do
    let retraction ← loop (m.var v).card (fun i (r : Bool) => do
      let l ← rd (m.var v).likelihood i
      let e ← rd evidence i
      ok (if l = 0 ∧ e ≠ 0 then true else r)) false
    let m ← (if !retraction then m.multiplyEvidence c v evidence (some (m.var v).likelihood) else ok m)
    let m ← m.updateLikelihood v evidence
    let m ← (if retraction then m.globalRetraction else ok m)
    ok (0, m)

/-- `nip_enter_index_observation`, `src/nipjointree.c:800-825`. -/
def enterIndexObservation (m : Model K) (v : Nat) (index : Int) : Res (Nat × Model K) :=
  if index < 0 then ok (0, m)
  else do
    let evidence ← loop (m.var v).card (fun i e => wr e i (if (i : Int) = index then (1 : K) else 0))
      (List.replicate (m.var v).card 0)
    m.enterEvidence v evidence

/-- `nip_variable_state_index`, `src/nipvariable.c:239-248`: `names` is the array of state names (`none`: null pointer), and `none` as
result is `-1`. -/
def stateIndex (card : Nat) (names : Option (List String)) (state : String) : Res (Option Nat) :=
  match names with
  | none => ok none
  | some names => firstIdx (fun i => do
    let name ← rd names i
    ok (name == state)) 0 card

/-- `nip_enter_observation`, `src/nipjointree.c:789-798`; `stateNames` are the names of the states of `v`. -/
def enterObservation (m : Model K) (v : Nat) (stateNames : Option (List String)) (state : String) : Res (Nat × Model K) := do
  let i ← stateIndex (m.var v).card stateNames state
  match i with
  | none => ok (0, m)
  | some i => m.enterIndexObservation v (i : Int)

/-- `nip_enter_prior`, `src/nipjointree.c:873-912` (non-null arguments). -/
def enterPrior (m : Model K) (v : Nat) (prior : List K) : Res (Nat × Model K) := do
  let (c, m) ← m.findFamily v
  let e ← loop (m.var v).card (fun i (e : Bool) => do
    let x ← rd prior i
    ok (if x > 0 then false else e)) true
  match c with
  | none => ok (EINVAL, m)
  | some c =>
    if e then ok (EINVAL, m)
    else do
      let m ← m.multiplyEvidence c v prior none
      ok (0, m)

/-- `reset_model`, `src/nip.c:60-72`. -/
def reset (m : Model K) : Res (Model K) := do
  let m ← m.varList.foldlM (fun (m : Model K) v => do
    let m ← m.resetLikelihood v
    ok (m.setVar v { m.var v with priorEntered := false })) m
  m.globalRetraction

/-- `total_reset`, `src/nip.c:75-84`. -/
def totalReset (m : Model K) : Res (Model K) := do
  let cs ← loop m.tree.cliques.length (fun i (cs : List (Clique K)) => do
    let cl ← rd cs i
    wr cs i { cl with orig := cl.orig.uniform 1 }) m.tree.cliques
  reset { m with tree := { m.tree with cliques := cs } }

/-- One round of the loop of `use_priors`, `src/nip.c:92-113`; a failed assertion (no prior) is undefined behaviour. -/
def usePrior (hasHistory : Bool) (m : Model K) (v : Nat) : Res (Model K) :=
  match (m.var v).prior with
  | none => ub
  | some prior =>
    if !(m.var v).priorEntered then
      if !hasHistory || !(m.var v).oldOutgoing then do
        let (_, m) ← m.enterPrior v prior
        ok (m.setVar v { m.var v with priorEntered := true })
      else ok m
    else ok m

/-- `use_priors`, `src/nip.c:87-115`. -/
def usePriors (m : Model K) (hasHistory : Bool) : Res (Model K) := m.independent.foldlM (usePrior hasHistory) m

/-- `make_consistent`, `src/nip.c:1618-1635`. -/
def makeConsistent (m : Model K) : Res (Model K) := do
  let t ← m.tree.unmarkAll
  let (e, t) ← t.collect (t.cliques.length + 1) none none 0
  if e ≠ 0 then ok { m with tree := t }
  else do
    let t ← t.unmarkAll
    let (_, t) ← t.distribute (t.cliques.length + 1) 0
    ok { m with tree := t }

/-- `model_prob_mass`, `src/nip.c:2276-2280`. -/
def probMass (m : Model K) : Res (K × Model K) := do
  let (k, t) ← m.tree.probabilityMass
  ok (k, { m with tree := t })

/-- `get_probability`, `src/nip.c:2283-2320`; `none` is the null pointer. -/
def getProbability (m : Model K) (v : Nat) : Res (Option (List K) × Model K) := do
  let (c, m) ← m.findFamily v
  match c with
  | none => ok (none, m)
  | some c => do
    let (_, r) ← m.tree.marginaliseClique c v (List.replicate (m.var v).card 0)
    let r ← Potential.normaliseArray r 0 (m.var v).card
    ok (some r, m)

end Model
end Nip
