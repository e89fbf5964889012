import Verif.HuginParse
import Verif.Learn

/-!
# Model of `write_model` (`src/nip.c`)

The file can be opened, written and closed; memory is available.  `NET_LANG_V1` is not defined, as in the default build.  The characters that
`fprintf` makes for `%f` are given by a function; those for `%d` (the numbers are not negative here) are the decimal digits.
-/

namespace Nip

open Res Spec

variable {K : Type} [Field K] [LinearOrder K]

/-- The table of a variable with parents, `src/nip.c:418-439`: the original table of the clique, summed to the family (the child is the first
dimension) and normalised. -/
def Model.writtenTable (m : Model K) (v : Nat) : Res (Potential K × Model K) := do
  let card := (m.var v).card :: (m.var v).parents.map (fun u => (m.var u).card)
  let p : Option (Potential K) ← Potential.new card (card.length : Int) none
  match p with
  | none => ub
  | some p => do
    let (c, m) ← m.findFamily v
    match c with
    | none => ub
    | some c => do
      let cl ← rd m.tree.cliques c
      let mp ← familyMapping cl.vars v (m.var v).parents
      let (_, p) ← Potential.generalMarginalise cl.orig p mp
      let p ← p.normaliseCpd
      ok (p, m)

/-- The variables `children` of a model, `src/nip.c:236-244`. -/
def Model.children (m : Model K) : List Nat := m.varList.filter (fun v => !(m.var v).parents.isEmpty)

/-- The numbers that `write_model` prints for the variables with parents, `src/nip.c:321` and `src/nip.c:395-439`, without the printing. -/
def Model.writtenTables (m : Model K) : Res (List (Nat × Potential K) × Model K) := do
  let m ← m.reset
  m.children.foldlM (fun (st : List (Nat × Potential K) × Model K) v => do
    let (p, m) ← st.2.writtenTable v
    ok (st.1 ++ [(v, p)], m)) ([], m)

/-- the remainder of a division; division by zero is undefined -/
def modC (a b : Nat) : Res Nat := if b = 0 then ub else ok (a % b)

/-- `%d` -/
def printNat (n : Nat) : List Char := Nat.toDigits 10 n

/-- The texts of a variable, which the code finds in the variable itself.  Here they are kept in a list; there is no other variable. -/
def textsOf (nodes : List NodeRec) (v : Nat) : Res NodeRec :=
  match nodes.find? (fun n => n.id == v) with
  | some n => ok n
  | none => ub

/-- One variable, `src/nip.c:350-367`; `next` is the field of the variables.  (The number of states is the number of their names.) -/
def printNode (nodes : List NodeRec) (next : Nat → Option Nat) (v : NodeRec) (out : List Char) : Res (List Char) := do
  let n := v.states.length - 1
  let out := out ++ "\nnode ".toList ++ v.symbol ++ "\n{\n    label = \"".toList ++ v.label ++ "\";\n    position = (".toList ++ printNat v.posX ++
    " ".toList ++ printNat v.posY ++ ");\n    states = (".toList
  let out ← loop n (fun j out => do
    let s ← rd v.states j
    ok (out ++ " \"".toList ++ s ++ "\" \n              ".toList)) out
  let s ← rd v.states n
  let out := out ++ " \"".toList ++ s ++ "\" );\n".toList
  match next v.id with
  | none => ok (out ++ "}\n".toList)
  | some u => do
    let u ← textsOf nodes u
    ok (out ++ "    NIP_next = \"".toList ++ u.symbol ++ "\";\n".toList ++ "}\n".toList)

/-- `POTENTIAL_ELEMENTS_PER_LINE`, `src/nip.c:26` -/
def elementsPerLine : Nat := 7

/-- One prior, `src/nip.c:371-392`; a missing prior is a null pointer, which is read. -/
def printPrior (fmt : K → List Char) (v : NodeRec) (card : Nat) (prior : Option (List K)) (out : List Char) : Res (List Char) :=
  match prior with
  | none => ub
  | some prior => do
    let out := out ++ "\npotential (".toList ++ v.symbol ++ ")\n{\n    data = ( ".toList
    let out ← loop card (fun j out => do
      let out := if 0 < j ∧ j % elementsPerLine = 0 then out ++ "\n             ".toList else out
      let a ← rd prior j
      ok (out ++ fmt a ++ "  ".toList)) out
    ok (out ++ ");\n}\n".toList)

/-- The comment with the states of the parents, `src/nip.c:456-459`. -/
def printStates (parents : List NodeRec) (temp : List Nat) (out : List Char) : Res (List Char) :=
  loopDown parents.length (fun x out => do
    let u ← rd parents x
    let i ← rd temp (x + 1)
    let s ← rd u.states i
    ok (out ++ u.symbol ++ "=".toList ++ s ++ " ".toList)) out

/-- One table, `src/nip.c:396-477`; `p` is the result of `Model.writtenTable`. -/
def printTable (fmt : K → List Char) (v : NodeRec) (card : Nat) (parents : List NodeRec) (p : Potential K) (out : List Char) : Res (List Char) := do
  let out := out ++ "\npotential (".toList ++ v.symbol ++ " | ".toList
  let out ← loopDown (parents.length - 1) (fun j out => do
    let u ← rd parents (j + 1)
    ok (out ++ u.symbol ++ " ".toList)) out
  let u ← rd parents 0
  let out := out ++ u.symbol ++ ")\n{ \n    data = (".toList
  let out := if 1 < parents.length then out ++ "(".toList else out
  let (out, _, _) ← loop p.size (fun j (st : List Char × Nat × List Nat) => do
    let i ← modC j card
    let st ← (if 0 < j ∧ (i = 0 ∨ (elementsPerLine < card ∧ st.2.1 % elementsPerLine = 0)) then
      if i = 0 then do
        let out := if 1 < parents.length then st.1 ++ ")(".toList else st.1
        let out := out ++ " % ".toList
        let temp ← Potential.inverseMapping p.card p.size (j - 1) st.2.2
        let out ← printStates parents temp out
        ok (out ++ "\n            ".toList, 0, temp)
      else ok (st.1 ++ "\n            ".toList, 0, st.2.2)
    else ok st)
    let a ← rd p.data j
    ok (st.1 ++ " ".toList ++ fmt a ++ " ".toList, st.2.1 + 1, st.2.2)) (out, 0, p.card)
  let out := if 1 < parents.length then out ++ ")".toList else out
  ok (out ++ ");\n}\n".toList)

/-- `write_model`, `src/nip.c:295-489`: the text of the file and the model. -/
def writeModel (fmt : K → List Char) (r : ReadModel K) : Res (List Char × Model K) := do
  let m ← r.model.reset
  let out := "net\n{\n    node_size = (".toList ++ printNat r.sizeX ++ " ".toList ++ printNat r.sizeY ++ ");\n}\n".toList
  let out ← m.varList.foldlM (fun out v => do
    let n ← textsOf r.nodes v
    printNode r.nodes r.file.next n out) out
  let out ← m.independent.foldlM (fun out v => do
    let n ← textsOf r.nodes v
    printPrior fmt n (m.var v).card (m.var v).prior out) out
  m.children.foldlM (fun (st : List Char × Model K) v => do
    let n ← textsOf r.nodes v
    let parents ← (st.2.var v).parents.mapM (textsOf r.nodes)
    let (p, m) ← st.2.writtenTable v
    let out ← printTable fmt n (m.var v).card parents p st.1
    ok (out, m)) (out, m)

end Nip
