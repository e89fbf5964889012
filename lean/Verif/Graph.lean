import Verif.Basic
import Verif.Variable

/-!
# Model of `src/nipgraph.c`: graphs, moralisation, interface edges

Variables are their identities (see `Verif/Variable.lean`).  The adjacency matrix is a flat array of `size * size` truth values
(`NIP_ADJM`, `src/nipgraph.h:29`).
-/

namespace Nip

open Res

/-- `nip_graph_struct`, `src/nipgraph.h:33-41`.  An unset place of `variables` is `none`; `varInd = none` is the null pointer. -/
structure Graph where
  size : Nat
  top : Nat
  adj : List Bool
  varInd : Option (List Nat)
  minId : Nat
  maxId : Nat
  vars : List (Option Nat)
deriving Repr, DecidableEq

namespace Graph

/-- `NIP_ADJM(g, i, j)` read. -/
def adjm (g : Graph) (i j : Nat) : Res Bool := rd g.adj (i * g.size + j)

/-- `NIP_ADJM(g, i, j) = b`. -/
def setAdjm (g : Graph) (i j : Nat) (b : Bool) : Res Graph := do
  let a ← wr g.adj (i * g.size + j) b
  ok { g with adj := a }

/-- `nip_new_graph`, `src/nipgraph.c:70-100`. -/
def new (n : Nat) : Graph :=
  { size := n, top := 0, adj := List.replicate (n * n) false, varInd := none, minId := 0, maxId := 0,
    vars := List.replicate n none }

/-- `nip_copy_graph`, `src/nipgraph.c:102-123`: everything but the index is copied. -/
def copy (g : Graph) : Graph := { g with varInd := none }

/-- `nip_build_graph_index`, `src/nipgraph.c:278-297`. -/
def buildIndex (g : Graph) : Res Graph := do
  let ind ← loop g.top (fun i (ind : List Nat) => do
    let v ← rd g.vars i
    match v with
    | none => ub
    | some v => if v < g.minId then ub else wr ind (v - g.minId) i) (List.replicate (g.maxId - g.minId + 1) 0)
  ok { g with varInd := some ind }

/-- Looking up in the index, `src/nipgraph.c:173-174`: `none` is `-1`. -/
def lookup (g : Graph) (ind : List Nat) (v : Nat) : Res (Option Nat) :=
  if v < g.minId then ub
  else do
    let i ← rd ind (v - g.minId)
    let u ← rd g.vars i
    ok (if u == some v then some i else none)

/-- `nip_graph_index`, `src/nipgraph.c:147-175`: the index (`none` is `-1`), and the graph, in which the index table may have been
built.  (Allocation does not fail, so the linear search of lines 164-169 is not reached.) -/
def index (g : Graph) (v : Nat) : Res (Option Nat × Graph) := do
  let g ← (match g.varInd with
    | none => g.buildIndex
    | some _ => ok g)
  let i ← g.lookup (g.varInd.getD []) v
  ok (i, g)

/-- `nip_graph_linked`, `src/nipgraph.c:219-226`. -/
def linked (g : Graph) (parent child : Nat) : Res (Bool × Graph) := do
  let (i, g) ← g.index parent
  let (j, g) ← g.index child
  match i, j with
  | some i, some j => do
    let b ← g.adjm i j
    ok (b, g)
  | _, _ => ok (false, g)

/-- `nip_graph_add_node`, `src/nipgraph.c:230-256`: error code and new graph. -/
def addNode (g : Graph) (v : Nat) : Res (Nat × Graph) :=
  if g.top = g.size then ok (ERANGE, g)
  else do
    let vars ← wr g.vars g.top (some v)
    let g := { g with
      vars := vars
      top := g.top + 1
      minId := if v < g.minId ∨ g.minId = 0 then v else g.minId
      maxId := if v > g.maxId ∨ g.maxId = 0 then v else g.maxId
      varInd := none }
    if g.top = g.size then do
      let g ← g.buildIndex
      ok (0, g)
    else ok (0, g)

/-- `nip_graph_add_child`, `src/nipgraph.c:258-270`. -/
def addChild (g : Graph) (parent child : Nat) : Res (Nat × Graph) := do
  let (i, g) ← g.index parent
  let (j, g) ← g.index child
  match i, j with
  | some i, some j => do
    let g ← g.setAdjm i j true
    ok (0, g)
  | _, _ => ok (EINVAL, g)

/-- `nip_make_graph_undirected`, `src/nipgraph.c:300-322`. -/
def makeUndirected (g : Graph) : Res Graph :=
  loop g.size (fun i gu =>
    loop g.size (fun j gu => do
      let a ← g.adjm i j
      let b ← g.adjm j i
      gu.setAdjm i j (a || b)) gu) g.copy

/-- `nip_moralise_graph`, `src/nipgraph.c:325-351`.  The innermost loop runs over `j = i + 1 + j'`. -/
def moralise (g : Graph) : Res Graph :=
  loop g.size (fun v gm =>
    loop g.size (fun i gm => do
      let p ← g.adjm i v
      if p then
        loop (g.size - (i + 1)) (fun j' gm => do
          let j := i + 1 + j'
          let q ← g.adjm j v
          let a ← gm.adjm i j
          let gm ← gm.setAdjm i j (a || q)
          let b ← gm.adjm j i
          gm.setAdjm j i (b || q)) gm
      else ok gm) gm) g.copy

/-- `nip_add_interface_edges`, `src/nipgraph.c:354-386`.  `oldOut v` and `out v` are the bits
`NIP_INTERFACE_OLD_OUTGOING` and `NIP_INTERFACE_OUTGOING` of `NIP_IF(v)`; looking at an unset variable is undefined behaviour. -/
def addInterfaceEdges (oldOut out : Nat → Bool) (g : Graph) : Res Graph :=
  loop g.size (fun i gi =>
    loop (g.size - (i + 1)) (fun j' gi => do
      let j := i + 1 + j'
      let v1 ← rd g.vars i
      let v2 ← rd g.vars j
      match v1, v2 with
      | some v1, some v2 =>
        if (oldOut v1 && oldOut v2) || (out v1 && out v2) then do
          let gi ← gi.setAdjm i j true
          gi.setAdjm j i true
        else ok gi
      | _, _ => ub) gi) g.copy

end Graph
end Nip
