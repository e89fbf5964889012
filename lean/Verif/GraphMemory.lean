import Verif.Graph
import Verif.PotentialMemory
import Verif.Spec.GraphMemory

/-!
# The memory of graphs

The memory of `Verif/PotentialMemory.lean` with other blocks.  Simplified: the entries of a table of positions, and of the matrix of a changed copy, are computed from what is in memory by
the functions of `Verif/Graph.lean` (in which every access is checked), and are written at once; integers are unbounded.
-/

namespace Nip

open Res

/-- `nip_graph_struct`, `src/nipgraph.h:33-41` -/
structure GraphCell where
  size : Nat
  top : Nat
  minId : Nat
  maxId : Nat
  adj : MemPtr
  vars : MemPtr
  ind : MemPtr
deriving Repr, DecidableEq

/-- What is in a block. -/
inductive GraphBlock where
  | graph (c : GraphCell)
  | matrix (l : List Bool)
  | nodes (l : List (Option Nat))
  | table (l : List Nat)
deriving Repr, DecidableEq

abbrev GraphMemory := Store GraphBlock

namespace Store

/-- read a graph -/
def graphAt (m : GraphMemory) (p : MemPtr) : Res GraphCell := do
  match ← m.get p with
  | .graph c => ok c
  | _ => ub

/-- read a matrix -/
def matrixAt (m : GraphMemory) (p : MemPtr) : Res (List Bool) := do
  match ← m.get p with
  | .matrix l => ok l
  | _ => ub

/-- read an array of variables -/
def nodesAt (m : GraphMemory) (p : MemPtr) : Res (List (Option Nat)) := do
  match ← m.get p with
  | .nodes l => ok l
  | _ => ub

/-- read a table of positions -/
def tableAt (m : GraphMemory) (p : MemPtr) : Res (List Nat) := do
  match ← m.get p with
  | .table l => ok l
  | _ => ub

/-- The graph with its arrays, without the table. -/
def graphValue (m : GraphMemory) (p : MemPtr) : Res Graph := do
  let c ← m.graphAt p
  let adj ← m.matrixAt c.adj
  let vars ← m.nodesAt c.vars
  ok { size := c.size, top := c.top, adj := adj, varInd := none, minId := c.minId, maxId := c.maxId, vars := vars }

/-- `nip_new_graph`, `src/nipgraph.c:70-100` -/
def newGraph (m : GraphMemory) (n : Nat) : Res (MemPtr × GraphMemory) := do
  let (g, m) := m.alloc (.graph { size := n, top := 0, minId := 0, maxId := 0, adj := .junk, vars := .junk, ind := .junk })
  if g == .null then ok (.null, m)
  else do
    let (a, m) := m.alloc (.matrix (List.replicate (n * n) false))
    if a == .null then do
      let m ← m.free g
      ok (.null, m)
    else do
      let (v, m) := m.alloc (.nodes (List.replicate n none))
      if v == .null then do
        let m ← m.free a
        let m ← m.free g
        ok (.null, m)
      else do
        let m ← m.put g (.graph { size := n, top := 0, minId := 0, maxId := 0, adj := a, vars := v, ind := .null })
        ok (g, m)

/-- `nip_copy_graph`, `src/nipgraph.c:102-122` -/
def copyGraph (m : GraphMemory) (g : MemPtr) : Res (MemPtr × GraphMemory) := do
  let c ← m.graphAt g
  let (p, m) ← m.newGraph c.size
  if p == .null then ok (.null, m)
  else do
    let c' ← m.graphAt p
    let adj ← m.matrixAt c.adj
    let m ← m.put c'.adj (.matrix adj)
    let vars ← m.nodesAt c.vars
    let m ← m.put c'.vars (.nodes vars)
    let m ← m.put p (.graph { c' with top := c.top, minId := c.minId, maxId := c.maxId, ind := .null })
    ok (p, m)

/-- `nip_free_graph`, `src/nipgraph.c:124-131` -/
def freeGraph (m : GraphMemory) (g : MemPtr) : Res GraphMemory := do
  let null ← g.isNull
  if null then ok m
  else do
    let c ← m.graphAt g
    let m ← m.free c.adj
    let m ← m.free c.vars
    let m ← m.free c.ind
    m.free g

/-- `nip_build_graph_index`, `src/nipgraph.c:278-297`.  Returns whether there was memory. -/
def buildTable (m : GraphMemory) (g : MemPtr) : Res (Bool × GraphMemory) := do
  let c ← m.graphAt g
  let m ← m.free c.ind
  let (t, m) := m.alloc (.table (List.replicate (c.maxId - c.minId + 1) 0))
  let m ← m.put g (.graph { c with ind := t })
  if t == .null then ok (false, m)
  else do
    let G ← m.graphValue g
    let G ← G.buildIndex
    let m ← m.put t (.table (G.varInd.getD []))
    ok (true, m)

/-- The search without a table, `src/nipgraph.c:165-168`: `k` places from `i` on. -/
def searchNodes (vars : List (Option Nat)) (v : Nat) : (k i : Nat) → Res (Option Nat)
  | 0, _ => ok none
  | k + 1, i => do
    let u ← rd vars i
    if u == some v then ok (some i) else searchNodes vars v k (i + 1)

/-- The search with a table, `src/nipgraph.c:173-174`. -/
def searchTable (m : GraphMemory) (g : MemPtr) (v : Nat) : Res (Option Nat) := do
  let c ← m.graphAt g
  let t ← m.tableAt c.ind
  let G ← m.graphValue g
  G.lookup t v

/-- `nip_graph_index`, `src/nipgraph.c:147-175`; `none` is -1. -/
def findNode (m : GraphMemory) (g : MemPtr) (v : Nat) : Res (Option Nat × GraphMemory) := do
  let null ← g.isNull
  if null then ok (none, m)
  else do
    let c ← m.graphAt g
    let missing ← c.ind.isNull
    if missing then do
      let (good, m) ← m.buildTable g
      if good then do
        let i ← m.searchTable g v
        ok (i, m)
      else do
        let c ← m.graphAt g
        let vars ← m.nodesAt c.vars
        let i ← searchNodes vars v c.top 0
        ok (i, m)
    else do
      let i ← m.searchTable g v
      ok (i, m)

/-- `nip_graph_add_node`, `src/nipgraph.c:230-256`: the error code. -/
def addNodeAt (m : GraphMemory) (g : MemPtr) (v : Nat) : Res (Nat × GraphMemory) := do
  let c ← m.graphAt g
  if c.top = c.size then ok (ERANGE, m)
  else do
    let vars ← m.nodesAt c.vars
    let vars ← wr vars c.top (some v)
    let m ← m.put c.vars (.nodes vars)
    let m ← m.free c.ind
    let m ← m.put g (.graph { c with
      top := c.top + 1
      minId := if v < c.minId ∨ c.minId = 0 then v else c.minId
      maxId := if v > c.maxId ∨ c.maxId = 0 then v else c.maxId
      ind := .null })
    if c.top + 1 = c.size then do
      let (_, m) ← m.buildTable g
      ok (0, m)
    else ok (0, m)

/-- `nip_graph_add_child`, `src/nipgraph.c:258-270`: the error code. -/
def addEdgeAt (m : GraphMemory) (g : MemPtr) (parent child : Nat) : Res (Nat × GraphMemory) := do
  let (i, m) ← m.findNode g parent
  let (j, m) ← m.findNode g child
  match i, j with
  | some i, some j => do
    let c ← m.graphAt g
    let adj ← m.matrixAt c.adj
    let adj ← wr adj (i * c.size + j) true
    let m ← m.put c.adj (.matrix adj)
    ok (0, m)
  | _, _ => ok (EINVAL, m)

/-- The common part of the next three functions: NULL for NULL; a copy, and its matrix is computed from the graph. -/
def changedCopy (f : Graph → Res Graph) (m : GraphMemory) (g : MemPtr) : Res (MemPtr × GraphMemory) := do
  let null ← g.isNull
  if null then ok (.null, m)
  else do
    let (p, m) ← m.copyGraph g
    if p == .null then ok (.null, m)
    else do
      let G ← m.graphValue g
      let G ← f G
      let c ← m.graphAt p
      let m ← m.put c.adj (.matrix G.adj)
      ok (p, m)

/-- `nip_moralise_graph`, `src/nipgraph.c:325-351` -/
def moralise (m : GraphMemory) (g : MemPtr) : Res (MemPtr × GraphMemory) := changedCopy Graph.moralise m g

/-- `nip_add_interface_edges`, `src/nipgraph.c:354-386` -/
def joinInterface (old out : Nat → Bool) (m : GraphMemory) (g : MemPtr) : Res (MemPtr × GraphMemory) := changedCopy (Graph.addInterfaceEdges old out) m g

/-- `nip_make_graph_undirected`, `src/nipgraph.c:300-322` -/
def undirect (m : GraphMemory) (g : MemPtr) : Res (MemPtr × GraphMemory) := changedCopy Graph.makeUndirected m g

/-- The start of `nip_graph_to_cliques`, `src/nipgraph.c:518-529`, until the triangulation has read the size of the graph (`:453`): the undirected graph. -/
def prepareCliques (old out : Nat → Bool) (m : GraphMemory) (g : MemPtr) : Res (MemPtr × GraphMemory) := do
  let (gm, m) ← m.moralise g
  let (gi, m) ← joinInterface old out m gm
  let m ← m.freeGraph gm
  let (gu, m) ← m.undirect gi
  let m ← m.freeGraph gi
  let _ ← m.graphAt gu
  ok (gu, m)

end Store

/-- the memory, all graphs that the program asked for, and the answers to its searches -/
structure GraphWorld where
  mem : GraphMemory
  handles : List MemPtr
  answers : List (Option Nat)

/-- nothing has happened -/
def GraphWorld.start (fails : Nat → Bool) : GraphWorld := { mem := Store.empty fails, handles := [], answers := [] }

/-- one call; a program does not use NULL -/
def GraphWorld.step (old out : Nat → Bool) (w : GraphWorld) : Spec.GraphCall → Res GraphWorld
  | .new n => do
    let (p, m) ← w.mem.newGraph n
    ok { w with mem := m, handles := w.handles ++ [p] }
  | .copy g => do
    let p ← rd w.handles g
    let (q, m) ← if p == .null then ok (.null, w.mem) else w.mem.copyGraph p
    ok { w with mem := m, handles := w.handles ++ [q] }
  | .node g v => do
    let p ← rd w.handles g
    if p == .null then ok w
    else do
      let (_, m) ← w.mem.addNodeAt p v
      ok { w with mem := m }
  | .edge g u v => do
    let p ← rd w.handles g
    if p == .null then ok w
    else do
      let (_, m) ← w.mem.addEdgeAt p u v
      ok { w with mem := m }
  | .find g v => do
    let p ← rd w.handles g
    let (i, m) ← w.mem.findNode p v
    ok { w with mem := m, answers := w.answers ++ [i] }
  | .moralise g => do
    let p ← rd w.handles g
    let (q, m) ← w.mem.moralise p
    ok { w with mem := m, handles := w.handles ++ [q] }
  | .join g => do
    let p ← rd w.handles g
    let (q, m) ← Store.joinInterface old out w.mem p
    ok { w with mem := m, handles := w.handles ++ [q] }
  | .undirect g => do
    let p ← rd w.handles g
    let (q, m) ← w.mem.undirect p
    ok { w with mem := m, handles := w.handles ++ [q] }
  | .free g => do
    let p ← rd w.handles g
    let m ← w.mem.freeGraph p
    ok { w with mem := m }

/-- a history of calls -/
def GraphWorld.run (old out : Nat → Bool) (w : GraphWorld) : List Spec.GraphCall → Res GraphWorld
  | [] => ok w
  | a :: h => do
    let w ← w.step old out a
    w.run old out h

end Nip
