import Verif.Sepsets
import Verif.Spec.NetFile

/-!
# Model of building a model from a parsed network file: `src/huginnet.y`, `src/nip.c`

The text of the file is not modelled: `Spec.NetFile` holds what the grammar actions have collected (`nip_parsed_vars`,
`nip_parsed_potentials`, `nip_interface_relations`) when the rule `input` is reduced.  `none` stands for an aborted parse
(`parse_model` returns the null pointer).
-/

namespace Nip

open Res Spec

variable {K : Type} [Zero K] [One K] [Add K] [Sub K] [Mul K] [Div K] [LinearOrder K]

/-- `nip_new_variable`, `src/nipvariable.c:56-124`, fields used by the model. -/
def VarRec.new (card : Nat) : VarRec K :=
  { card := card, parents := [], likelihood := List.replicate card 1, prior := none, priorEntered := false, familyClique := none,
    oldOutgoing := false, outgoing := false }

/-- `nip_variable_is_parent`, `src/nipvariable.c:372-382`. -/
def isParent (var : Nat → VarRec K) (parent child : Nat) : Bool := (var child).parents.any (fun p => p == parent)

namespace NetFile

/-- First loop of `parsed_vars_to_graph`, `src/huginnet.y:1071-1083`. -/
def addNodes (vs : List Nat) (g : Graph) : Res (Option Graph) :=
  vs.foldlM (fun (st : Option Graph) v =>
    match st with
    | none => ok none
    | some g => do
      let (e, g) ← g.addNode v
      if e ≠ 0 then ok none else ok (some g)) (some g)

/-- Links from the parents of one table to its child, `src/huginnet.y:1087-1102`. -/
def addEdges (q : Parsed K) (g : Graph) : Res (Option Graph) :=
  loop (q.table.dim - 1) (fun i (st : Option Graph) =>
    match st with
    | none => ok none
    | some g => do
      let u ← rd q.parents i
      let (e, g) ← g.addChild u q.child
      if e ≠ 0 then ok none else ok (some g)) (some g)

/-- One table of the second loop of `parsed_vars_to_graph`, `src/huginnet.y:1086-1109`, with `nip_set_parents`
(`src/nipvariable.c:338-361`). -/
def addTable (st : Option (Graph × (Nat → VarRec K))) (q : Parsed K) : Res (Option (Graph × (Nat → VarRec K))) :=
  match st with
  | none => ok none
  | some (g, var) => do
    let g ← addEdges q g
    match g with
    | none => ok none
    | some g => ok (some (g, Function.update var q.child { var q.child with parents := q.parents.take (q.table.dim - 1) }))

/-- `parsed_vars_to_graph`, `src/huginnet.y:1065-1112`.  Without any table the list is a null pointer, which is read. -/
def toGraph (f : NetFile K) : Res (Option (Graph × (Nat → VarRec K))) :=
  match f.pots with
  | [] => ub
  | _ => do
    let g ← addNodes f.vars (Graph.new f.vars.length)
    match g with
    | none => ok none
    | some g => f.pots.foldlM addTable (some (g, fun v => VarRec.new (f.card v)))

/-- Interface bits set because of one parent `v1` of a variable, `src/huginnet.y:1213-1240`.  The bit `INCOMING` and the warnings are
not modelled. -/
def interfaceParent (next : Nat → Option Nat) (var : Nat → VarRec K) (v1 : Nat) : Nat → VarRec K :=
  match next v1 with
  | none => var
  | some w =>
    let var := Function.update var v1 { var v1 with oldOutgoing := true }
    Function.update var w { var w with outgoing := true }

/-- `interface_to_vars`, `src/huginnet.y:1162-1262`: the second loop.  `next` is the field set by the first loop; a file that
names a variable of a different number of states as successor is rejected and not considered here. -/
def interfaces (f : NetFile K) (var : Nat → VarRec K) : Nat → VarRec K :=
  f.vars.foldl (fun var v2 => (var v2).parents.foldl (interfaceParent f.next) var) var

/-- One table of `parsed_potentials_to_jtree`, `src/huginnet.y:1129-1156`, with `nip_set_prior` (`src/nipvariable.c:385-399`). -/
def initTable (st : Option (Model K)) (q : Parsed K) : Res (Option (Model K)) :=
  match st with
  | none => ok none
  | some m => do
    let (c, m) ← m.findFamily q.child
    match c with
    | none => ok (some m)
    | some c =>
      if 1 < q.table.dim then do
        let (e, m) ← m.initClique c q.child q.table false
        if e ≠ 0 then ok none else ok (some m)
      else do
        let prior ← loop (m.var q.child).card (fun i l => do
          let x ← rd q.table.data i
          wr l i x) (List.replicate (m.var q.child).card 0)
        ok (some (m.setVar q.child { m.var q.child with prior := some prior }))

/-- The part of `parse_model` that completes the variables, `src/nip.c:155-181`, `src/nip.c:236-241`: variables without parents get a
prior of zeros if they have none, and are listed as independent. -/
def complete (m : Model K) : Model K :=
  { m with
    independent := m.varList.filter (fun v => (m.var v).parents.isEmpty)
    var := fun v => if v ∈ m.varList ∧ (m.var v).parents = [] ∧ (m.var v).prior = none then
      { m.var v with prior := some (List.replicate (m.var v).card 0) } else m.var v }

/-- The action of the rule `input` of `src/huginnet.y:202-237` and the rest of `parse_model`, `src/nip.c:118-290`. -/
def build (ptr : Nat) (f : NetFile K) : Res (Option (Model K)) := do
  let r ← toGraph f
  match r with
  | none => ok none
  | some (g, var) => do
    let var := interfaces f var
    let (_, t) ← graphToTree ptr (clusterPrimaryCost (isParent var)) (clusterSecondaryCost f.card) f.card
      (fun v => (var v).oldOutgoing) (fun v => (var v).outgoing) g
    let r ← f.pots.foldlM initTable (some { tree := t, var := var, varList := f.vars, independent := [] })
    match r with
    | none => ok none
    | some m => ok (some (complete m))

end NetFile
end Nip
