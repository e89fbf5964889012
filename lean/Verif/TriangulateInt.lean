import Verif.Triangulate
import Verif.PotentialInt

/-!
# Model of `src/nipgraph.c`: integer arithmetic of the triangulation

The functions of `Verif/Triangulate.lean` that compute costs of clusters, again, now with `int` as it is: a product or a sum larger than `M`, the
largest `int`, is undefined behaviour.  Costs are at least zero.  The other integers, i.e. sizes of clusters and positions in the heap, are not checked
here: they are at most twice the number of variables.
-/

namespace Nip

open Res

/-- `nip_cluster_primary_cost`, `src/nipgraph.c:616-636`; `isParent` is `nip_variable_is_parent`. -/
def primaryCostInt (M : Nat) (isParent : Nat → Nat → Bool) (vs : List Nat) : Res Int := do
  let sum ← loop vs.length (fun i sum => loop (vs.length - (i + 1)) (fun j' sum => do
    let x ← rd vs i
    let y ← rd vs (i + 1 + j')
    addInt M sum (if isParent x y then 0 else 1)) sum) 0
  ok (sum : Int)

/-- `nip_cluster_secondary_cost`, `src/nipgraph.c:638-644`; `card` is `NIP_CARDINALITY`. -/
def secondaryCostInt (M : Nat) (card : Nat → Nat) (vs : List Nat) : Res Int := do
  let prod ← loop vs.length (fun i prod => do
    let v ← rd vs i
    mulInt M prod (card v)) 1
  ok (prod : Int)

/-- `nip_heap_insert`, `src/nipheap.c:82-116`: both keys are computed first (lines 93-94). -/
def Heap.insertInt {α : Type} (ptr : Nat) (pk sk : α → Res Int) (h : Heap α) (content : α) : Res (Heap α) := do
  let a ← pk content
  let b ← sk content
  Heap.insert ptr (fun _ => a) (fun _ => b) h content

/-- `nip_set_heap_item`, `src/nipheap.c:154-170`: the keys are computed (lines 164-165) if the position and the size are legal. -/
def Heap.setItemInt {α : Type} (pk sk : α → Res Int) (h : Heap α) (index : Int) (content : α) (size : Int) : Res (Nat × Heap α) :=
  if index < 0 ∨ index ≥ (h.items.length : Int) ∨ size ≤ 0 then ok (EINVAL, h)
  else do
    let a ← pk content
    let b ← sk content
    ok (Heap.setItem (fun _ => a) (fun _ => b) h index content size)

/-- `nip_build_cluster_heap`, `src/nipgraph.c:670-713`, as `Graph.buildClusterHeap`. -/
def Graph.buildClusterHeapInt (ptr : Nat) (pk sk : List Nat → Res Int) (g : Graph) : Res (Option (Heap (List Nat)) × Graph) :=
  match Heap.new ptr (g.top : Int) with
  | none => ok (none, g)
  | some h => do
    let (h, g) ← loop g.top (fun i (st : Heap (List Nat) × Graph) => do
      let v ← rd st.2.vars i
      match v with
      | none => ub
      | some v => do
        let (c, g) ← st.2.cluster v
        match c with
        | none => ub
        | some c => do
          let h ← Heap.insertInt ptr pk sk st.1 c
          ok (h, g)) (h, g)
    let h ← h.build
    ok (some h, g)

/-- `nip_update_cluster_heap`, `src/nipgraph.c:725-778`, as `updateClusterHeap`. -/
def updateClusterHeapInt (pk sk : List Nat → Res Int) (h : Heap (List Nat)) (cluster : List Nat) : Res (Heap (List Nat)) := do
  let removed ← rd cluster 0
  let h ← loop (cluster.length - 1) (fun i' (h : Heap (List Nat)) => do
    let i := i' + 1
    let v ← rd cluster i
    let index : Int := (match h.search (familyCluster v) with
      | some n => (n : Int)
      | none => -1)
    match h.getItem index with
    | none => ub
    | some old => do
      let (newc, _) ← variableUnion old cluster
      let (newc, k) ← removeVar removed newc
      let content ← takeVars newc k
      let r ← Heap.setItemInt pk sk h index content (k : Int)
      ok r.2) h
  h.build

/-- One round of the loop of `nip_triangulate_graph`, `src/nipgraph.c:463-505`, as `triRound`. -/
def triRoundInt (pk sk : List Nat → Res Int) (n : Nat) (st : TriState) : Res TriState := do
  let (item, h) ← st.heap.extractMin
  match item with
  | none => ub
  | some c => do
    let (gm, flags) ← fillCluster c st.gm (List.replicate n false)
    let h ← updateClusterHeapInt pk sk h c
    let b ← LList.containsSubset st.mem st.clusters flags n
    if !b then do
      let (m, l) ← LList.prepend st.mem st.clusters flags
      ok { gm := gm, heap := h, mem := m, clusters := l }
    else ok { gm := gm, heap := h, mem := st.mem, clusters := st.clusters }

/-- `nip_triangulate_graph`, `src/nipgraph.c:443-515`, as `triangulate`. -/
def triangulateInt (ptr : Nat) (pk sk : List Nat → Res Int) (g : Graph) : Res (List (List Nat)) := do
  let (h, gm) ← g.buildClusterHeapInt ptr pk sk
  match h with
  | none => ub
  | some h => do
    let st ← loop g.size (fun _ st => triRoundInt pk sk g.size st) { gm := gm, heap := h, mem := [], clusters := LList.new }
    clusterListToCliqueArray st.mem st.clusters st.gm.vars g.size

/-- `nip_graph_to_cliques`, `src/nipgraph.c:518-544`, as `graphToCliques`, with the costs of the library. -/
def graphToCliquesInt (M ptr : Nat) (isParent : Nat → Nat → Bool) (card : Nat → Nat) (oldOut out : Nat → Bool) (g : Graph) : Res (List (List Nat)) := do
  let gm ← g.moralise
  let gi ← gm.addInterfaceEdges oldOut out
  let gu ← gi.makeUndirected
  triangulateInt ptr (primaryCostInt M isParent) (secondaryCostInt M card) gu

end Nip
