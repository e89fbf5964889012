import Verif.JoinTree

/-!
# Model of `src/nipgraph.c`: connecting the cliques

The heap of candidate separators holds separators (in C: pointers to them) that are not yet part of the tree.
-/

namespace Nip

open Res

variable {K : Type} [Zero K] [One K] [Add K] [Sub K] [Mul K] [Div K] [LinearOrder K]

/-- `nip_sepset_primary_cost`, `src/nipgraph.c:646-650`, for the size `1` given to all items; `nip_sepset_size` is the number of
dimensions of the table `old` (`src/nipjointree.c:497-499`). -/
def sepsetPrimaryCost (s : Sepset K) : Int := - (s.old.dim : Int)

/-- `nip_sepset_secondary_cost`, `src/nipgraph.c:652-667`.  The test `if(!s)` is the wrong way round: for a non-null pointer the result is
`0`. -/
def sepsetSecondaryCost (_ : Sepset K) : Int := 0

namespace JTree

/-- `nip_build_sepset_heap`, `src/nipgraph.c:781-822`; `none` is the null pointer.  `nip_new_sepset` does not fail when memory is
available (see `Sepset.make`); the branch that frees the heap is not modelled. -/
def buildSepsetHeap (ptr : Nat) (card : Nat → Nat) (t : JTree K) : Res (Option (Heap (Sepset K))) :=
  let n := t.cliques.length
  match Heap.new ptr ((n * (n - 1) / 2 : Nat) : Int) with
  | none => ok none
  | some h => do
    let h ← loop (n - 1) (fun i h =>
      loop (n - (i + 1)) (fun j' h => do
        let j := i + 1 + j'
        let nca ← rd t.cliques i
        let ncb ← rd t.cliques j
        let s ← Sepset.make card i j nca.vars ncb.vars
        match s with
        | none => ub
        | some s => Heap.insert ptr sepsetPrimaryCost sepsetSecondaryCost h s) h) h
    let h ← h.build
    ok (some h)

/-- The loop of `nip_create_sepsets`, `src/nipgraph.c:563-603`: error code and tree.  `fuel` bounds the number of rounds. -/
def sepsetLoop : (fuel : Nat) → (inserted : Nat) → Heap (Sepset K) → JTree K → Res (Nat × JTree K)
  | 0, _, _, _ => ub
  | fuel + 1, inserted, h, t =>
    if inserted < t.cliques.length - 1 then do
      let (item, h) ← h.extractMin
      match item with
      | none => ok (ENOMEM, t)
      | some s => do
        let t ← t.unmarkAll
        let (b, t) ← t.connected (t.cliques.length + 1) s.first s.second
        if !b then do
          let t ← t.confirm s
          sepsetLoop fuel (inserted + 1) h t
        else sepsetLoop fuel inserted h t
    else ok (0, t)

/-- `nip_create_sepsets`, `src/nipgraph.c:547-612`: error code and tree. -/
def createSepsets (ptr : Nat) (card : Nat → Nat) (t : JTree K) : Res (Nat × JTree K) := do
  let h ← t.buildSepsetHeap ptr card
  match h with
  | none => ok (ENOMEM, t)
  | some h => sepsetLoop (h.items.length + 2) 0 h t

end JTree

/-- Making the cliques of the given (sorted) variable sets, `src/nipgraph.c:421-432`. -/
def makeCliques (card : Nat → Nat) (sets : List (List Nat)) : Res (List (Clique K)) :=
  sets.mapM (fun vs => do
    let c ← Clique.ofSorted card vs
    match c with
    | some c => ok c
    | none => ub)

/-- `nip_graph_to_cliques`, `src/nipgraph.c:518-544`: error code of `nip_create_sepsets` (which is reported but not returned) and the
clique tree. -/
def graphToTree (ptr : Nat) (pk sk : List Nat → Int) (card : Nat → Nat) (oldOut out : Nat → Bool) (g : Graph) :
    Res (Nat × JTree K) := do
  let sets ← graphToCliques ptr pk sk oldOut out g
  let cs ← makeCliques card sets
  JTree.createSepsets ptr card { cliques := cs, sepsets := [] }

end Nip
