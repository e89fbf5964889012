import Verif.Basic
import Verif.Spec.VariableMemory
import Mathlib.Logic.Function.Basic

/-!
# The memory of variables

Blocks of memory at addresses that are given in order; an address is not given again.  Simplified: the contents of texts and of arrays of numbers are left out.
-/

namespace Nip

open Res

/-- a pointer; `junk` if it was never set -/
inductive MemPtr where
  | junk
  | null
  | block (a : Nat)
deriving Repr, DecidableEq

/-- `nip_variable_struct`, `src/nipvariable.h:51-78`: the pointers to memory that belongs to the variable, `cardinality` and `num_of_parents`. -/
structure VarCell where
  card : Nat
  symbol : MemPtr
  name : MemPtr
  states : MemPtr
  likelihood : MemPtr
  prior : MemPtr
  parents : MemPtr
  nParents : Nat
  mapping : MemPtr
deriving Repr, DecidableEq

/-- What is in a block: a variable, an array of pointers, or anything without pointers. -/
inductive MemBlock where
  | cell (c : VarCell)
  | ptrs (l : List MemPtr)
  | raw
deriving Repr, DecidableEq

/-- The memory: the blocks in use, the number of calls of `malloc` and `calloc` so far, and which of these calls fail. -/
structure Memory where
  blocks : Nat → Option MemBlock
  next : Nat
  fails : Nat → Bool

/-- nothing has been allocated -/
def Memory.empty (fails : Nat → Bool) : Memory := { blocks := fun _ => none, next := 0, fails := fails }

/-- the number of blocks in use -/
def Memory.inUse (m : Memory) : Nat := ((List.range m.next).filter (fun b => (m.blocks b).isSome)).length

/-- `malloc` and `calloc`.  Simplified: a call for zero bytes gives a block like any other (C allows NULL). -/
def Memory.alloc (m : Memory) (b : MemBlock) : MemPtr × Memory :=
  if m.fails m.next then (.null, { m with next := m.next + 1 })
  else (.block m.next, { m with blocks := Function.update m.blocks m.next (some b), next := m.next + 1 })

/-- `free` -/
def Memory.free (m : Memory) : MemPtr → Res Memory
  | .junk => ub
  | .null => ok m
  | .block a =>
    match m.blocks a with
    | none => ub
    | some _ => ok { m with blocks := Function.update m.blocks a none }

/-- read a variable -/
def Memory.cell (m : Memory) : MemPtr → Res VarCell
  | .block a =>
    match m.blocks a with
    | some (.cell c) => ok c
    | _ => ub
  | _ => ub

/-- write a variable -/
def Memory.putCell (m : Memory) (p : MemPtr) (c : VarCell) : Res Memory :=
  match p with
  | .block a =>
    match m.blocks a with
    | some (.cell _) => ok { m with blocks := Function.update m.blocks a (some (.cell c)) }
    | _ => ub
  | _ => ub

/-- read an array of pointers -/
def Memory.array (m : Memory) : MemPtr → Res (List MemPtr)
  | .block a =>
    match m.blocks a with
    | some (.ptrs l) => ok l
    | _ => ub
  | _ => ub

/-- write an array of pointers -/
def Memory.putArray (m : Memory) (p : MemPtr) (l : List MemPtr) : Res Memory :=
  match p with
  | .block a =>
    match m.blocks a with
    | some (.ptrs _) => ok { m with blocks := Function.update m.blocks a (some (.ptrs l)) }
    | _ => ub
  | _ => ub

/-- A pointer is compared with NULL. -/
def MemPtr.isNull : MemPtr → Res Bool
  | .junk => ub
  | .null => ok true
  | .block _ => ok false

/-- `nip_set_variable_text`, `src/nipvariable.c:33-53`: returns whether there was an error, and the new value of `*record`. -/
def Memory.setText (m : Memory) (record : MemPtr) (given : Bool) : Res (Bool × MemPtr × Memory) :=
  if given then do
    let _ ← record.isNull
    let m ← m.free record
    let (p, m) := m.alloc .raw
    ok (p == .null, p, m)
  else ok (true, record, m)

/-- `for(...) free(v->state_names[j])` for the first `n` names, `src/nipvariable.c:105-106`, `:119-120`, `:189-190`. -/
def Memory.freeNames (m : Memory) (states : MemPtr) (n : Nat) : Res Memory :=
  loop n (fun j m => do
    let row ← m.array states
    let p ← rd row j
    m.free p) m

/-- The body of the loop over the names of the states, `src/nipvariable.c:102-110`.  After an error everything is freed, but the loop goes on. -/
def Memory.nameState (v : MemPtr) (given : List Bool) (i : Nat) (m : Memory) : Res Memory := do
  let c ← m.cell v
  let row ← m.array c.states
  let p ← rd row i
  let g ← rd given i
  let (err, p, m) ← m.setText p g
  let row ← wr row i p
  let m ← m.putArray c.states row
  if err then do
    let m ← m.freeNames c.states i
    let m ← m.free c.states
    m.free v
  else ok m

/-- `nip_new_variable`, `src/nipvariable.c:56-128`.  `states` has as many entries as `cardinality`. -/
def Memory.newVariable (m : Memory) (symbol name : Bool) (states : Option (List Bool)) : Res (MemPtr × Memory) := do
  let c : VarCell := { card := (states.getD []).length, symbol := .null, name := .junk, states := .junk, likelihood := .junk, prior := .null, parents := .null, nParents := 0, mapping := .null }
  let (v, m) := m.alloc (.cell c)
  if v == .null then ok (.null, m)
  else do
    let (_, p, m) ← m.setText .null symbol
    let c := { c with symbol := p, name := .null }
    let (_, p, m) ← m.setText .null name
    let c := { c with name := p }
    let m ← m.putCell v c
    let (arr, m) := if states.isSome then m.alloc (.ptrs (List.replicate c.card .null)) else (.junk, m)
    let m ← m.putCell v { c with states := arr }
    if arr == .null then do
      let m ← m.free v
      ok (.null, m)
    else do
      let m ← if states.isSome then loop c.card (Memory.nameState v (states.getD [])) m else ok m
      let c ← m.cell v
      let (lk, m) := m.alloc .raw
      let m ← m.putCell v { c with likelihood := lk }
      let m ← if lk == .null then do
          let m ← m.freeNames c.states c.card
          let m ← m.free c.states
          m.free v
        else ok m
      let _ ← m.cell v
      ok (v, m)

/-- `nip_copy_variable`, `src/nipvariable.c:132-180`.  The other fields of the copy are not set. -/
def Memory.copyVariable (m : Memory) (v : MemPtr) : Res (MemPtr × Memory) := do
  let null ← v.isNull
  if null then ok (.null, m)
  else do
    let (copy, m) := m.alloc (.cell { card := 0, symbol := .junk, name := .junk, states := .junk, likelihood := .junk, prior := .junk, parents := .junk, nParents := 0, mapping := .junk })
    if copy == .null then ok (.null, m)
    else do
      let c ← m.cell v
      let unnamed ← c.name.isNull
      let (_, p, m) ← m.setText .junk (!unnamed)
      let x : VarCell := { card := c.card, symbol := .junk, name := p, states := .junk, likelihood := .junk, prior := .junk, parents := .null, nParents := c.nParents, mapping := .junk }
      let alone ← c.parents.isNull
      let l ← if alone then ok [] else m.array c.parents
      let (ps, m) := if alone then (MemPtr.null, m) else m.alloc (.ptrs l)
      let m ← m.putCell copy { x with parents := ps }
      if alone == false && ps == .null then do
        let m ← m.free copy
        ok (.null, m)
      else do
        let (lk, m) := m.alloc .raw
        let m ← m.putCell copy { x with parents := ps, likelihood := lk }
        if lk == .null then do
          let m ← m.free ps
          let m ← m.free copy
          ok (.null, m)
        else ok (copy, m)

/-- `nip_free_variable`, `src/nipvariable.c:183-198`. -/
def Memory.freeVariable (m : Memory) (v : MemPtr) : Res Memory := do
  let null ← v.isNull
  if null then ok m
  else do
    let c ← m.cell v
    let m ← m.free c.symbol
    let m ← m.free c.name
    let none ← c.states.isNull
    let m ← if none then ok m else m.freeNames c.states c.card
    let m ← m.free c.states
    let m ← m.free c.parents
    let m ← m.free c.mapping
    let m ← m.free c.likelihood
    let m ← m.free c.prior
    m.free v

/-- `nip_set_parents`, `src/nipvariable.c:338-360`.  If the allocation fails, the number of parents stays as it was (`:349-350`). -/
def Memory.setParents (m : Memory) (v : MemPtr) (ps : List MemPtr) : Res Memory := do
  let null ← v.isNull
  if null then ok m
  else do
    let c ← m.cell v
    let m ← m.free c.parents
    if 0 < ps.length then do
      let (p, m) := m.alloc (.ptrs ps)
      m.putCell v (if p == .null then { c with parents := p } else { c with parents := p, nParents := ps.length })
    else m.putCell v { c with parents := .null, nParents := 0 }

/-- `nip_set_prior`, `src/nipvariable.c:385-398`.  The result of `calloc` is not checked before the numbers are copied. -/
def Memory.setPrior (m : Memory) (v : MemPtr) (given : Bool) : Res Memory := do
  let null ← v.isNull
  if null then ok m
  else do
    let c ← m.cell v
    if given then do
      let m ← m.free c.prior
      let (p, m) := m.alloc .raw
      let m ← m.putCell v { c with prior := p }
      if p == .null && decide (0 < c.card) then ub else ok m
    else ok m

/-- The parents are looked at in `nip_find_family_mapping`, `src/nipjointree.c:990-1002`.  Simplified: each of them, whatever the variables of the clique. -/
def Memory.lookAt (m : Memory) : List MemPtr → Res Unit
  | [] => ok ()
  | p :: ps => do
    let _ ← m.cell p
    m.lookAt ps

/-- `nip_find_family_mapping`, `src/nipjointree.c:963-1007`, for a clique. -/
def Memory.findMapping (m : Memory) (v : MemPtr) : Res Memory := do
  let null ← v.isNull
  if null then ok m
  else do
    let c ← m.cell v
    let missing ← c.mapping.isNull
    if missing then do
      let (p, m) := m.alloc .raw
      if p == .null then ok m
      else do
        let l ← if 0 < c.nParents then m.array c.parents else ok []
        let l ← if l.length < c.nParents then ub else ok (l.take c.nParents)
        let _ ← m.lookAt l
        m.putCell v { c with mapping := p }
    else ok m

/-- The prior probabilities that `parse_model` gives to a variable without parents and prior probabilities, `src/nip.c:168-177`. -/
def Memory.defaultPrior (m : Memory) (v : MemPtr) : Res Memory := do
  let c ← m.cell v
  let alone ← c.parents.isNull
  if alone then do
    let missing ← c.prior.isNull
    if missing then do
      let (p, m) := m.alloc .raw
      m.putCell v { c with prior := p }
    else ok m
  else ok m

/-- the memory and the variables created, in order -/
structure VarWorld where
  mem : Memory
  vars : List MemPtr

/-- one call -/
def VarWorld.step (w : VarWorld) : Spec.VarCall → Res VarWorld
  | .create symbol name states => do
    let (p, m) ← w.mem.newVariable symbol name states
    ok { mem := m, vars := w.vars ++ [p] }
  | .copy v => do
    let p ← rd w.vars v
    let (p, m) ← w.mem.copyVariable p
    ok { mem := m, vars := w.vars ++ [p] }
  | .parents v ps => do
    let p ← rd w.vars v
    let m ← w.mem.setParents p (ps.map (fun i => w.vars.getD i .junk))
    ok { w with mem := m }
  | .prior v given => do
    let p ← rd w.vars v
    let m ← w.mem.setPrior p given
    ok { w with mem := m }
  | .mapping v => do
    let p ← rd w.vars v
    let m ← w.mem.findMapping p
    ok { w with mem := m }
  | .defaultPrior v => do
    let p ← rd w.vars v
    let m ← w.mem.defaultPrior p
    ok { w with mem := m }
  | .free v => do
    let p ← rd w.vars v
    let m ← w.mem.freeVariable p
    ok { w with mem := m }

/-- a history of calls -/
def VarWorld.run (w : VarWorld) : List Spec.VarCall → Res VarWorld
  | [] => ok w
  | a :: h => do
    let w ← w.step a
    w.run h

end Nip
