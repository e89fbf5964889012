import Verif.PotentialMemory
import Verif.Triangulate
import Verif.Variable

/-!
# Model of the creation of cliques and separators in `src/nipjointree.c` with its memory

Tables (with all that belongs to them) live in the memory of `Verif/PotentialMemory.lean`, everything else in a second memory of the same kind; each says which of its allocations fail.  Variables are
numbers, in the order of the code; `card` gives their numbers of states.
-/

namespace Nip

open Res

/-- `nip_clique_struct`, `src/nipjointree.h:43-50`, without the mark and the unused number of separators -/
structure CliqueCell where
  vars : MemPtr
  p : MemPtr
  orig : MemPtr
  sepsets : MemPtr
deriving Repr, DecidableEq

/-- `nip_sepset_struct`, `src/nipjointree.h:56-62` -/
structure SepsetCell where
  vars : MemPtr
  old : MemPtr
  new : MemPtr
  first : MemPtr
  second : MemPtr
deriving Repr, DecidableEq

/-- `nip_sepsetlink_struct`, `src/nipjointree.h` -/
structure SepsetLink where
  data : MemPtr
  fwd : MemPtr
  bwd : MemPtr
deriving Repr, DecidableEq

/-- What is in a block; `scratch` are the arrays of integers that are needed for a moment. -/
inductive CliqueBlock where
  | clique (c : CliqueCell)
  | sepset (s : SepsetCell)
  | link (k : SepsetLink)
  | vars (l : List Nat)
  | scratch
deriving Repr, DecidableEq

/-- the two memories -/
structure TreeMemory where
  pots : PotMemory
  rest : Store CliqueBlock

namespace TreeMemory

/-- read a clique -/
def cliqueAt (r : Store CliqueBlock) (p : MemPtr) : Res CliqueCell := do
  match ← r.get p with
  | .clique c => ok c
  | _ => ub

/-- read a separator -/
def sepsetAt (r : Store CliqueBlock) (p : MemPtr) : Res SepsetCell := do
  match ← r.get p with
  | .sepset c => ok c
  | _ => ub

/-- read an entry of a list -/
def sepLinkAt (r : Store CliqueBlock) (p : MemPtr) : Res SepsetLink := do
  match ← r.get p with
  | .link c => ok c
  | _ => ub

/-- read an array of variables of which `n` are used -/
def varsOf (r : Store CliqueBlock) (p : MemPtr) (n : Nat) : Res (List Nat) := do
  match ← r.get p with
  | .vars l => if n ≤ l.length then ok (l.take n) else ub
  | _ => ub

/-- `nip_new_clique`, `src/nipjointree.c:75-173`.  Simplified: the arrays `cardinality`, `reorder` and `indices` are blocks without contents; what is computed with them is `sortClique`. -/
def newClique (card : Nat → Nat) (vars : List Nat) (w : TreeMemory) : Res (MemPtr × TreeMemory) := do
  let (c, r) := w.rest.alloc (.clique { vars := .junk, p := .junk, orig := .junk, sepsets := .junk })
  if c == .null then ok (.null, { w with rest := r })
  else do
    let (cardinality, r) := r.alloc .scratch
    if cardinality == .null then do
      let r ← r.free c
      ok (.null, { w with rest := r })
    else do
      let (reorder, r) := r.alloc .scratch
      if reorder == .null then do
        let r ← r.free c
        let r ← r.free cardinality
        ok (.null, { w with rest := r })
      else do
        let (indices, r) := r.alloc .scratch
        if indices == .null then do
          let r ← r.free c
          let r ← r.free cardinality
          let r ← r.free reorder
          ok (.null, { w with rest := r })
        else do
          let vs ← sortClique vars
          let (v, r) := r.alloc (.vars vs)
          if v == .null then do
            let r ← r.free c
            let r ← r.free cardinality
            let r ← r.free reorder
            let r ← r.free indices
            ok (.null, { w with rest := r })
          else do
            let (p, m) ← w.pots.newPotential (vs.map card) (vars.length : Int) none
            let (o, m) ← m.newPotential (vs.map card) (vars.length : Int) none
            if p == .null || o == .null then do
              let r ← r.free cardinality
              let r ← r.free indices
              let r ← r.free reorder
              let r ← r.free v
              let m ← m.freePotential p
              let m ← m.freePotential o
              let r ← r.free c
              ok (.null, { pots := m, rest := r })
            else do
              let r ← r.free cardinality
              let r ← r.free indices
              let r ← r.free reorder
              let r ← r.put c (.clique { vars := v, p := p, orig := o, sepsets := .null })
              ok (c, { pots := m, rest := r })

/-- `nip_free_clique`, `src/nipjointree.c:176-207`, for cliques without separators (with separators: `SepsetMemory.lean`, C87; here that is reported as `ub`). -/
def freeClique (w : TreeMemory) (c : MemPtr) : Res TreeMemory := do
  let null ← c.isNull
  if null then ok w
  else do
    let k ← cliqueAt w.rest c
    let none ← k.sepsets.isNull
    if !none then ub
    else do
      let m ← w.pots.freePotential k.p
      let m ← m.freePotential k.orig
      let r ← w.rest.free k.vars
      let r ← r.free c
      ok { pots := m, rest := r }

/-- `nip_free_sepset`, `src/nipjointree.c:327-335` -/
def freeSepset (w : TreeMemory) (s : MemPtr) : Res TreeMemory := do
  let null ← s.isNull
  if null then ok w
  else do
    let k ← sepsetAt w.rest s
    let m ← w.pots.freePotential k.old
    let m ← m.freePotential k.new
    let r ← w.rest.free k.vars
    let r ← r.free s
    ok { pots := m, rest := r }

/-- The end of `nip_new_sepset`, `src/nipjointree.c:311-322`, with the common variables `vs`. -/
def fillSepset (card : Nat → Nat) (a b : MemPtr) (vs : List Nat) (w : TreeMemory) (s v cardinality : MemPtr) : Res (MemPtr × TreeMemory) := do
  let (o, m) ← w.pots.newPotential (vs.map card) (vs.length : Int) none
  let (n, m) ← m.newPotential (vs.map card) (vs.length : Int) none
  let r ← w.rest.free cardinality
  let r ← r.put s (.sepset { vars := v, old := o, new := n, first := a, second := b })
  if o == .null || n == .null then do
    let w ← freeSepset { pots := m, rest := r } s
    ok (.null, w)
  else ok (s, { pots := m, rest := r })

/-- `nip_new_sepset`, `src/nipjointree.c:264-323`, with `nip_variable_isect`, `src/nipvariable.c:506-557` (what it computes is `variableIsect`). -/
def newSepset (card : Nat → Nat) (a b : MemPtr) (w : TreeMemory) : Res (MemPtr × TreeMemory) := do
  let na ← a.isNull
  let nb ← b.isNull
  if na || nb then ok (.null, w)
  else do
    let (s, r) := w.rest.alloc (.sepset { vars := .junk, old := .junk, new := .junk, first := a, second := b })
    if s == .null then ok (.null, { w with rest := r })
    else do
      let ca ← cliqueAt r a
      let cb ← cliqueAt r b
      let pa ← w.pots.potentialAt ca.p
      let pb ← w.pots.potentialAt cb.p
      let va ← varsOf r ca.vars pa.dim
      let vb ← varsOf r cb.vars pb.dim
      let (xs, k) ← variableIsect va vb
      let vs ← takeVars xs k
      if k = 0 then do
        let r ← r.put s (.sepset { vars := .null, old := .junk, new := .junk, first := a, second := b })
        fillSepset card a b vs { w with rest := r } s .null .null
      else do
        let (v, r) := r.alloc (.vars vs)
        if v == .null then do
          let r ← r.free s
          ok (.null, { w with rest := r })
        else do
          let r ← r.put s (.sepset { vars := v, old := .junk, new := .junk, first := a, second := b })
          let (cardinality, r) := r.alloc .scratch
          if cardinality == .null then do
            let w ← freeSepset { w with rest := r } s
            ok (.null, w)
          else fillSepset card a b vs { w with rest := r } s v cardinality

/-- One round of the loop of `nip_confirm_sepset`, `src/nipjointree.c:220-229`: the entry `new` is put first in the list of `c`. -/
def putFirst (r : Store CliqueBlock) (s new c : MemPtr) : Res (Store CliqueBlock) := do
  let k ← cliqueAt r c
  let r ← r.put new (.link { data := s, fwd := k.sepsets, bwd := .null })
  let none ← k.sepsets.isNull
  let r ← if none then ok r else do
    let h ← sepLinkAt r k.sepsets
    r.put k.sepsets (.link { h with bwd := new })
  let k ← cliqueAt r c
  r.put c (.clique { k with sepsets := new })

/-- `nip_confirm_sepset`, `src/nipjointree.c:210-233`: the error code. -/
def confirmSepset (w : TreeMemory) (s : MemPtr) : Res (Nat × TreeMemory) := do
  let (n1, r) := w.rest.alloc (.link { data := .junk, fwd := .junk, bwd := .junk })
  let (n2, r) := r.alloc (.link { data := .junk, fwd := .junk, bwd := .junk })
  if n1 == .null || n2 == .null then ok (ENOMEM, { w with rest := r })
  else do
    let k ← sepsetAt r s
    let r ← putFirst r s n1 k.first
    let k ← sepsetAt r s
    let r ← putFirst r s n2 k.second
    ok (0, { w with rest := r })

end TreeMemory

end Nip
