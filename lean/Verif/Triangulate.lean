import Verif.Graph
import Verif.Heap
import Verif.Lists

/-!
# Model of `src/nipgraph.c`: triangulation

The heap holds clusters, i.e. arrays of variables with their sizes: lists of identities.  `ptr` is the size of a pointer (see
`Verif/Heap.lean`).
-/

namespace Nip

open Res

/-- `nip_cluster_primary_cost`, `src/nipgraph.c:616-636`; `isParent` is `nip_variable_is_parent`.  Sums of `int` do not overflow. -/
def clusterPrimaryCost (isParent : Nat → Nat → Bool) (vs : List Nat) : Int :=
  ((List.range vs.length).map (fun i =>
    ((List.range (vs.length - (i + 1))).map (fun j' =>
      if isParent (vs.getD i 0) (vs.getD (i + 1 + j') 0) then (0 : Int) else 1)).sum)).sum

/-- `nip_cluster_secondary_cost`, `src/nipgraph.c:638-644`; `card` is `NIP_CARDINALITY`.  Products of `int` do not overflow. -/
def clusterSecondaryCost (card : Nat → Nat) (vs : List Nat) : Int := (vs.map (fun v => (card v : Int))).prod

namespace Graph

/-- `nip_graph_cluster`, `src/nipgraph.c:178-216`: the array (`none` for the return value `-1`), and the graph, in which the index may
have been built.  The counting loop for the allocation is the length of the result. -/
def cluster (g : Graph) (v : Nat) : Res (Option (List Nat) × Graph) := do
  let (vi, g) ← g.index v
  match vi with
  | none => ok (none, g)
  | some vi => do
    let c ← loop g.top (fun i (c : List Nat) => do
      let a ← g.adjm vi i
      if a then do
        let u ← rd g.vars i
        match u with
        | some u => ok (c ++ [u])
        | none => ub
      else ok c) [v]
    ok (some c, g)

/-- `nip_build_cluster_heap`, `src/nipgraph.c:670-713`.  For a cluster that cannot be found the code frees the heap and goes on using
it: undefined behaviour.  `none` is the null pointer. -/
def buildClusterHeap (ptr : Nat) (pk sk : List Nat → Int) (g : Graph) : Res (Option (Heap (List Nat)) × Graph) :=
  match Heap.new ptr (g.top : Int) with
  | none => ok (none, g)
  | some h => do
    let (h, g) ← loop g.top (fun i (st : Heap (List Nat) × Graph) => do
      let v ← rd st.2.vars i
      match v with
      | none => ub
      | some v => do
        let (c, g) ← st.2.cluster v
        match c with
        | none => ub
        | some c => do
          let h ← Heap.insert ptr pk sk st.1 c
          ok (h, g)) (h, g)
    let h ← h.build
    ok (some h, g)

end Graph

/-- `nip_family_cluster`, `src/nipgraph.c:716-722`, for a reference of size one. -/
def familyCluster (v : Nat) (c : List Nat) : Bool :=
  match c with
  | [] => false
  | x :: _ => x == v

/-- Removing `cluster[0]` from the union in place, `src/nipgraph.c:754-760`: the array and its new size `k`. -/
def removeVar (removed : Nat) (c : List (Option Nat)) : Res (List (Option Nat) × Nat) :=
  loop c.length (fun j (st : List (Option Nat) × Nat) => do
    let vi ← rd st.1 j
    let c ← wr st.1 j none
    if vi ≠ some removed then do
      let c ← wr c st.2 vi
      ok (c, st.2 + 1)
    else ok (c, st.2)) (c, 0)

/-- The first `k` places of an array of variables, all of which must be set. -/
def takeVars (c : List (Option Nat)) (k : Nat) : Res (List Nat) :=
  loop k (fun i (out : List Nat) => do
    let v ← rd c i
    match v with
    | some v => ok (out ++ [v])
    | none => ub) []

/-- `nip_update_cluster_heap`, `src/nipgraph.c:725-778`.  A neighbour cluster that is not found gives a null pointer, from which the
code would read (`assert` included): undefined behaviour. -/
def updateClusterHeap (pk sk : List Nat → Int) (h : Heap (List Nat)) (cluster : List Nat) : Res (Heap (List Nat)) := do
  let removed ← rd cluster 0
  let h ← loop (cluster.length - 1) (fun i' (h : Heap (List Nat)) => do
    let i := i' + 1
    let v ← rd cluster i
    let index : Int := (match h.search (familyCluster v) with
      | some n => (n : Int)
      | none => -1)
    match h.getItem index with
    | none => ub
    | some old => do
      let (newc, _) ← variableUnion old cluster
      let (newc, k) ← removeVar removed newc
      let content ← takeVars newc k
      ok (Heap.setItem pk sk h index content (k : Int)).2) h
  h.build

/-- Marking the members of a cluster and linking them pairwise, `src/nipgraph.c:482-493`. -/
def fillCluster (c : List Nat) (g : Graph) (flags : List Bool) : Res (Graph × List Bool) :=
  loop c.length (fun j (st : Graph × List Bool) => do
    let vj ← rd c j
    let (ji, g) ← st.1.index vj
    match ji with
    | none => ub
    | some ji => do
      let flags ← wr st.2 ji true
      let g ← loop (c.length - (j + 1)) (fun k' (g : Graph) => do
        let k := j + 1 + k'
        let vk ← rd c k
        let (ki, g) ← g.index vk
        match ki with
        | none => ub
        | some ki => do
          let g ← g.setAdjm ji ki true
          g.setAdjm ki ji true) g
      ok (g, flags)) (g, flags)

/-- State of the loop of `nip_triangulate_graph`: the graph, the heap of clusters, and the list of kept variable sets with its
memory. -/
structure TriState where
  gm : Graph
  heap : Heap (List Nat)
  mem : Mem (List Bool)
  clusters : LList

/-- One round of the loop, `src/nipgraph.c:463-505`.  `min_cluster` is null if the heap is empty: undefined behaviour. -/
def triRound (pk sk : List Nat → Int) (n : Nat) (st : TriState) : Res TriState := do
  let (item, h) ← st.heap.extractMin
  match item with
  | none => ub
  | some c => do
    let (gm, flags) ← fillCluster c st.gm (List.replicate n false)
    let h ← updateClusterHeap pk sk h c
    let b ← LList.containsSubset st.mem st.clusters flags n
    if !b then do
      let (m, l) ← LList.prepend st.mem st.clusters flags
      ok { gm := gm, heap := h, mem := m, clusters := l }
    else ok { gm := gm, heap := h, mem := st.mem, clusters := st.clusters }

/-- The ordering of the variables of a clique by `nip_new_clique`, `src/nipjointree.c:75-144`: counting, for each variable, those that
are smaller, and placing it accordingly. -/
def sortClique (vars : List Nat) : Res (List Nat) := do
  let indices ← loop vars.length (fun i ind => do
    let temp ← rd vars i
    loop vars.length (fun j ind => do
      let y ← rd vars j
      if y > temp then do
        let c ← rd ind j
        wr ind j (c + 1)
      else ok ind) ind) (List.replicate vars.length 0)
  let reorder ← loop vars.length (fun i r => do
    let k ← rd indices i
    wr r k i) (List.replicate vars.length 0)
  loop vars.length (fun i out => do
    let k ← rd reorder i
    let v ← rd vars k
    wr out i v) (List.replicate vars.length 0)

/-- The variables flagged in a set, `src/nipgraph.c:415-419`. -/
def flagged (vars : List (Option Nat)) (flags : List Bool) (n : Nat) : Res (List Nat) :=
  loop n (fun i (out : List Nat) => do
    let b ← rd flags i
    if b then do
      let v ← rd vars i
      match v with
      | some v => ok (out ++ [v])
      | none => ub
    else ok out) []

/-- `nip_cluster_list_to_clique_array`, `src/nipgraph.c:389-440`: the variables of the cliques (their tables are in
`Verif/JoinTree.lean`).  The array is filled from its end. -/
def clusterListToCliqueArray (m : Mem (List Bool)) (clusters : LList) (vars : List (Option Nat)) (n : Nat) :
    Res (List (List Nat)) := do
  let cells ← LList.forward (m.length + 1) m clusters.first
  let r ← cells.foldlM (fun (st : List (List Nat) × Nat) flags => do
    let cv ← flagged vars flags n
    let c ← sortClique cv
    if st.2 = 0 then ub
    else do
      let a ← wr st.1 (st.2 - 1) c
      ok (a, st.2 - 1)) (List.replicate clusters.length [], clusters.length)
  ok r.1

/-- `nip_triangulate_graph`, `src/nipgraph.c:443-515`: the array of cliques (given by their variables; its length is the number
returned).  A null heap is used: undefined behaviour. -/
def triangulate (ptr : Nat) (pk sk : List Nat → Int) (g : Graph) : Res (List (List Nat)) := do
  let (h, gm) ← g.buildClusterHeap ptr pk sk
  match h with
  | none => ub
  | some h => do
    let st ← loop g.size (fun _ st => triRound pk sk g.size st) { gm := gm, heap := h, mem := [], clusters := LList.new }
    clusterListToCliqueArray st.mem st.clusters st.gm.vars g.size

/-- `nip_graph_to_cliques`, `src/nipgraph.c:518-544`, up to the call of `nip_create_sepsets` (see `Verif/Sepsets.lean`). -/
def graphToCliques (ptr : Nat) (pk sk : List Nat → Int) (oldOut out : Nat → Bool) (g : Graph) : Res (List (List Nat)) := do
  let gm ← g.moralise
  let gi ← gm.addInterfaceEdges oldOut out
  let gu ← gi.makeUndirected
  triangulate ptr pk sk gu

end Nip
