import Verif.Sepsets
import Verif.TreeMemory

/-!
# The calls that `nip_create_sepsets` makes on the store of cliques and separators

The functions of `Verif/Sepsets.lean` once more, with the calls of `nip_new_sepset`, `nip_confirm_sepset` and `nip_free_sepset` written down in order.
-/

namespace Nip

open Res Spec

variable {K : Type} [Field K] [LinearOrder K]

/-- The pairs of cliques in the order of the loops in `nip_build_sepset_heap`, `src/nipgraph.c:797-798`. -/
def candidatePairs (n : Nat) : List (Nat × Nat) := (List.range (n - 1)).flatMap (fun i => (List.range (n - (i + 1))).map (fun j' => (i, i + 1 + j')))

/-- The separator that is made for the pair `k` (counted from 0) is called `k`; each pair makes one. -/
def candidateName (n : Nat) (s : Sepset K) : Nat := (candidatePairs n).idxOf (s.first, s.second)

/-- The calls of `nip_build_sepset_heap`, `src/nipgraph.c:803`, when memory is available. -/
def candidateCalls (n : Nat) : List GroveStep := (candidatePairs n).map (fun p => .newBorder p.1 p.2)

/-- The last loop of `nip_create_sepsets`, `src/nipgraph.c:607-608`. -/
def drainCalls (n : Nat) : Nat → Heap (Sepset K) → Res (List GroveStep)
  | 0, _ => ub
  | fuel + 1, h => do
    let (item, h) ← h.extractMin
    match item with
    | none => ok []
    | some s => do
      let calls ← drainCalls n fuel h
      ok (.freeBorder (candidateName n s) :: calls)

namespace JTree

/-- The loops of `nip_create_sepsets`, `src/nipgraph.c:561-608`: error code, tree, and calls.  A separator whose cliques are connected is
left where it is. -/
def sepsetLoopCalls : (fuel : Nat) → (inserted : Nat) → Heap (Sepset K) → JTree K → Res (Nat × JTree K × List GroveStep)
  | 0, _, _, _ => ub
  | fuel + 1, inserted, h, t =>
    if inserted < t.cliques.length - 1 then do
      let (item, h) ← h.extractMin
      match item with
      | none => ok (ENOMEM, t, [])
      | some s => do
        let t ← t.unmarkAll
        let (b, t) ← t.connected (t.cliques.length + 1) s.first s.second
        if !b then do
          let t ← t.confirm s
          let (e, t', calls) ← sepsetLoopCalls fuel (inserted + 1) h t
          ok (e, t', .confirm (candidateName t.cliques.length s) :: calls)
        else sepsetLoopCalls fuel inserted h t
    else do
      let calls ← drainCalls t.cliques.length (h.items.length + 1) h
      ok (0, t, calls)

/-- `nip_create_sepsets`, `src/nipgraph.c:547-612`: error code, tree, and calls. -/
def createSepsetsCalls (ptr : Nat) (card : Nat → Nat) (t : JTree K) : Res (Nat × JTree K × List GroveStep) := do
  let h ← t.buildSepsetHeap ptr card
  match h with
  | none => ok (ENOMEM, t, [])
  | some h => do
    let (e, t', calls) ← sepsetLoopCalls (h.items.length + 2) 0 h t
    ok (e, t', candidateCalls t.cliques.length ++ calls)

end JTree

end Nip
