import Verif.Basic
import Verif.Spec.TreeMemory
import Mathlib.Logic.Function.Basic

/-!
# The memory of cliques, separators and the cells of their lists

The structures of `src/nipjointree.h:33-63` live in a store.  Each kind has its own addresses, given in order; an address is not given again.  Reading,
writing or freeing what is not there (any more) is undefined.  Simplified: arrays of variables and potentials are left out (they belong to one clique or
separator and are freed with it), and `malloc` does not fail.
-/

namespace Nip

open Res

/-- An element of the list of separators of a clique, `nip_sepsetlink_struct`, `src/nipjointree.h:33-37`; `none` is the null pointer. -/
structure LinkCell where
  data : Nat
  fwd : Option Nat
  bwd : Option Nat
deriving Repr, DecidableEq

/-- The store: for each clique its field `sepsets` (`src/nipjointree.h:43-50`), for each separator its neighbours (`src/nipjointree.h:56-62`), the cells
of the lists, and the numbers of addresses given so far. -/
structure TreeStore where
  cliques : Nat → Option (Option Nat)
  nCliques : Nat
  seps : Nat → Option (Nat × Nat)
  nSeps : Nat
  cells : Nat → Option LinkCell
  nCells : Nat

/-- nothing has been allocated -/
def TreeStore.empty : TreeStore := { cliques := fun _ => none, nCliques := 0, seps := fun _ => none, nSeps := 0, cells := fun _ => none, nCells := 0 }

/-- what is at the address -/
def fetch {α : Type} (m : Nat → Option α) (i : Nat) : Res α :=
  match m i with
  | some x => ok x
  | none => ub

/-- `nip_new_clique`, `src/nipjointree.c:76-173`: the list of separators is empty (`:169`). -/
def TreeStore.newClique (st : TreeStore) : Res (Nat × TreeStore) :=
  ok (st.nCliques, { st with cliques := Function.update st.cliques st.nCliques (some none), nCliques := st.nCliques + 1 })

/-- `nip_new_sepset`, `src/nipjointree.c:264-324`: the variables of both cliques are read (`:286-290`); the lists of the cliques are not changed. -/
def TreeStore.newSepset (st : TreeStore) (a b : Nat) : Res (Nat × TreeStore) := do
  let _ ← fetch st.cliques a
  let _ ← fetch st.cliques b
  ok (st.nSeps, { st with seps := Function.update st.seps st.nSeps (some (a, b)), nSeps := st.nSeps + 1 })

/-- `malloc` of a cell, `src/nipjointree.c:215-216`. -/
def TreeStore.newCell (st : TreeStore) : Nat × TreeStore :=
  (st.nCells, { st with cells := Function.update st.cells st.nCells (some { data := 0, fwd := none, bwd := none }), nCells := st.nCells + 1 })

/-- The cell that was first points back to the new one, `src/nipjointree.c:225-226`. -/
def TreeStore.setBack (st : TreeStore) (head : Option Nat) (new : Nat) : Res TreeStore :=
  match head with
  | none => ok st
  | some k => do
    let x ← fetch st.cells k
    ok { st with cells := Function.update st.cells k (some { x with bwd := some new }) }

/-- The body of the loop in `nip_confirm_sepset`, `src/nipjointree.c:222-227`: the cell `new` becomes the first of the clique. -/
def TreeStore.pushCell (st : TreeStore) (s c new : Nat) : Res TreeStore := do
  let head ← fetch st.cliques c
  let _ ← fetch st.cells new
  let st := { st with cells := Function.update st.cells new (some { data := s, fwd := head, bwd := none }) }
  let st ← st.setBack head new
  ok { st with cliques := Function.update st.cliques c (some (some new)) }

/-- `nip_confirm_sepset`, `src/nipjointree.c:210-233`. -/
def TreeStore.confirmSepset (st : TreeStore) (s : Nat) : Res TreeStore := do
  let (new, st) := st.newCell
  let (new2, st) := st.newCell
  let (a, _) ← fetch st.seps s
  let st ← st.pushCell s a new
  let (_, b) ← fetch st.seps s
  st.pushCell s b new2

/-- What stands before the cell `x` (the clique, if it is the first) points behind it, `src/nipjointree.c:247-250`. -/
def TreeStore.setBefore (st : TreeStore) (c : Nat) (x : LinkCell) : Res TreeStore :=
  match x.bwd with
  | none => do
    let _ ← fetch st.cliques c
    ok { st with cliques := Function.update st.cliques c (some x.fwd) }
  | some b => do
    let y ← fetch st.cells b
    ok { st with cells := Function.update st.cells b (some { y with fwd := x.fwd }) }

/-- The cell behind the cell `x` points to the one before it, `src/nipjointree.c:252-253`. -/
def TreeStore.setBehind (st : TreeStore) (x : LinkCell) : Res TreeStore :=
  match x.fwd with
  | none => ok st
  | some f => do
    let y ← fetch st.cells f
    ok { st with cells := Function.update st.cells f (some { y with bwd := x.bwd }) }

/-- The cell `l` leaves the list of the clique and is freed, `src/nipjointree.c:247-255`. -/
def TreeStore.unlink (st : TreeStore) (c l : Nat) : Res TreeStore := do
  let x ← fetch st.cells l
  let st ← st.setBefore c x
  let x ← fetch st.cells l
  let st ← st.setBehind x
  let _ ← fetch st.cells l
  ok { st with cells := Function.update st.cells l none }

/-- The loop of `nip_remove_sepset`, `src/nipjointree.c:244-259`.  A list that does not end within the bound counts as undefined. -/
def TreeStore.removeFrom (c s : Nat) : Nat → Option Nat → TreeStore → Res TreeStore
  | 0, _, _ => ub
  | _ + 1, none, st => ok st
  | fuel + 1, some l, st => do
    let x ← fetch st.cells l
    if x.data = s then st.unlink c l else removeFrom c s fuel x.fwd st

/-- `nip_remove_sepset`, `src/nipjointree.c:236-261`. -/
def TreeStore.removeSepset (st : TreeStore) (c s : Nat) : Res TreeStore := do
  let head ← fetch st.cliques c
  TreeStore.removeFrom c s (st.nCells + 1) head st

/-- `nip_free_sepset`, `src/nipjointree.c:327-335`. -/
def TreeStore.freeSepset (st : TreeStore) (s : Nat) : Res TreeStore := do
  let _ ← fetch st.seps s
  ok { st with seps := Function.update st.seps s none }

/-- The loop of `nip_free_clique`, `src/nipjointree.c:186-200`. -/
def TreeStore.freeLinks : Nat → Option Nat → TreeStore → Res TreeStore
  | 0, _, _ => ub
  | _ + 1, none, st => ok st
  | fuel + 1, some l, st => do
    let x ← fetch st.cells l
    let (a, _) ← fetch st.seps x.data
    let st ← st.removeSepset a x.data
    let (_, b) ← fetch st.seps x.data
    let st ← st.removeSepset b x.data
    let st ← st.freeSepset x.data
    freeLinks fuel x.fwd st

/-- `nip_free_clique`, `src/nipjointree.c:176-207`. -/
def TreeStore.freeClique (st : TreeStore) (c : Nat) : Res TreeStore := do
  let head ← fetch st.cliques c
  let st ← TreeStore.freeLinks (st.nCells + 1) head st
  let _ ← fetch st.cliques c
  ok { st with cliques := Function.update st.cliques c none }

/-- The first loop of `free_model`, `src/nip.c:498-500`. -/
def TreeStore.freeCliques (st : TreeStore) : List Nat → Res TreeStore
  | [] => ok st
  | c :: cs => do
    let st ← st.freeClique c
    st.freeCliques cs

/-- A loop over the list of a clique, as in `src/nipjointree.c:522-543`, `:563-577`, `:1098-1118`: the separators found. -/
def TreeStore.walkFrom (st : TreeStore) : Nat → Option Nat → Res (List Nat)
  | 0, _ => ub
  | _ + 1, none => ok []
  | fuel + 1, some l => do
    let x ← fetch st.cells l
    let r ← st.walkFrom fuel x.fwd
    ok (x.data :: r)

/-- all separators in the list of a clique -/
def TreeStore.walk (st : TreeStore) (c : Nat) : Res (List Nat) := do
  let head ← fetch st.cliques c
  st.walkFrom (st.nCells + 1) head

/-- one call -/
def TreeStore.step (st : TreeStore) : Spec.GroveStep → Res TreeStore
  | .newClique => do
    let (_, st) ← st.newClique
    ok st
  | .newBorder a b => do
    let (_, st) ← st.newSepset a b
    ok st
  | .confirm s => st.confirmSepset s
  | .freeBorder s => st.freeSepset s
  | .freeClique c => st.freeClique c

/-- a history of calls; the n-th clique (separator) created has the address n -/
def TreeStore.run (st : TreeStore) : List Spec.GroveStep → Res TreeStore
  | [] => ok st
  | a :: h => do
    let st ← st.step a
    st.run h

end Nip
