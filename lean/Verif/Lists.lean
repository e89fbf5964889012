import Verif.Basic

/-!
# Model of the linked lists: `src/niplists.c`, and the variable and interface lists of `src/nipvariable.c`

All these lists (`int`, `double`, `int[]`, `char*`, pairs of strings, variables, interfaces) are copies of the same code, with
another type of data in the cells.  Cells live in a memory of numbered cells; a freed cell is `none`; using or freeing a freed
cell is undefined behaviour.
-/

namespace Nip

open Res

/-- A list cell, e.g. `nip_int_link_struct`. -/
structure Cell (α : Type) where
  data : α
  fwd : Option Nat
  bwd : Option Nat
deriving Repr, DecidableEq

/-- The memory of list cells. -/
abbrev Mem (α : Type) := List (Option (Cell α))

/-- The list header, e.g. `nip_int_list_struct`. -/
structure LList where
  length : Nat
  first : Option Nat
  last : Option Nat
deriving Repr, DecidableEq

namespace LList

variable {α : Type}

/-- `p->...` for a cell. -/
def deref (m : Mem α) (p : Option Nat) : Res (Cell α) :=
  match p with
  | none => ub
  | some a => match m[a]? with
    | some (some c) => ok c
    | _ => ub

/-- Assignment to a field of `*p`. -/
def store (m : Mem α) (p : Option Nat) (c : Cell α) : Res (Mem α) :=
  match p with
  | none => ub
  | some a => match m[a]? with
    | some (some _) => ok (m.set a (some c))
    | _ => ub

/-- `free(p)`. -/
def free (m : Mem α) (p : Option Nat) : Res (Mem α) :=
  match p with
  | none => ok m
  | some a => match m[a]? with
    | some (some _) => ok (m.set a none)
    | _ => ub

/-- `nip_new_int_list` etc., `src/niplists.c:48-115`, `src/nipvariable.c:592-611`. -/
def new : LList := { length := 0, first := none, last := none }

/-- `nip_append_int` etc., `src/niplists.c:118-227`, `src/nipvariable.c:614-658`. -/
def append (m : Mem α) (l : LList) (x : α) : Res (Mem α × LList) := do
  let new := m.length
  let m := m ++ [some { data := x, fwd := none, bwd := l.last }]
  if l.first = none then
    ok (m, { length := l.length + 1, first := some new, last := some new })
  else do
    let c ← deref m l.last
    let m ← store m l.last { c with fwd := some new }
    ok (m, { length := l.length + 1, first := l.first, last := some new })

/-- `nip_prepend_int` etc., `src/niplists.c:230-344`, `src/nipvariable.c:661-708`. -/
def prepend (m : Mem α) (l : LList) (x : α) : Res (Mem α × LList) := do
  let new := m.length
  let m := m ++ [some { data := x, fwd := l.first, bwd := none }]
  if l.last = none then
    ok (m, { length := l.length + 1, first := some new, last := some new })
  else do
    let c ← deref m l.first
    let m ← store m l.first { c with bwd := some new }
    ok (m, { length := l.length + 1, first := some new, last := l.last })

/-- `nip_int_list_to_array` etc., `src/niplists.c:347-428`, `src/nipvariable.c:711-737`; the null pointer returned for an empty
list is the empty array. -/
def toArray (m : Mem α) (l : LList) : Res (List α) := do
  let r ← loop l.length (fun _ (st : Option Nat × List α) => do
    let c ← deref m st.1
    ok (c.fwd, st.2 ++ [c.data])) (l.first, [])
  ok r.2

/-- The loop `while(ln != NULL){ free(ln->fwd); ln = ln->bwd; }`; `fuel` bounds the number of rounds, running out of it would be an
endless loop and is reported as `ub`. -/
def freeLoop : (fuel : Nat) → Mem α → Option Nat → Res (Mem α)
  | _, m, none => ok m
  | 0, _, some _ => ub
  | fuel + 1, m, some a => do
    let c ← deref m (some a)
    let m ← free m c.fwd
    freeLoop fuel m c.bwd

/-- `nip_empty_int_list` etc., `src/niplists.c:431-508`, `src/nipvariable.c:740-756`. -/
def empty (m : Mem α) (l : LList) : Res (Mem α × LList) := do
  let m ← freeLoop (m.length + 1) m l.last
  let m ← free m l.first
  ok (m, { length := 0, first := none, last := none })

/-- Forward iteration `for(ln = first; ln != NULL; ln = ln->fwd)`, as in `NIP_LIST_ITERATOR`/`NIP_LIST_NEXT`
(`src/niplists.h`), collecting the data. -/
def forward : (fuel : Nat) → Mem α → Option Nat → Res (List α)
  | _, _, none => ok []
  | 0, _, some _ => ub
  | fuel + 1, m, some a => do
    let c ← deref m (some a)
    let r ← forward fuel m c.fwd
    ok (c.data :: r)

/-- Backward iteration along `bwd`. -/
def backward : (fuel : Nat) → Mem α → Option Nat → Res (List α)
  | _, _, none => ok []
  | 0, _, some _ => ub
  | fuel + 1, m, some a => do
    let c ← deref m (some a)
    let r ← backward fuel m c.bwd
    ok (c.data :: r)

/-- Search along the list for the first cell whose data satisfies `p`: the loop of `nip_string_pair_list_search`
(`src/niplists.c:641-656`), `nip_string_list_contains` (`src/niplists.c:622-637`) and `nip_search_variable_list`
(`src/nipvariable.c:808-828`). -/
def searchFrom (p : α → Bool) : (fuel : Nat) → Mem α → Option Nat → Res (Option α)
  | _, _, none => ok none
  | 0, _, some _ => ub
  | fuel + 1, m, some a => do
    let c ← deref m (some a)
    if p c.data then ok (some c.data) else searchFrom p fuel m c.fwd

/-- `nip_string_pair_list_search`, `src/niplists.c:641-656`; strings are compared by `strcmp(..) == 0`. -/
def pairSearch (m : Mem (String × String)) (l : LList) (key : String) : Res (Option String) := do
  let r ← searchFrom (fun kv => key == kv.1) (m.length + 1) m l.first
  ok (r.map (·.2))

/-- `nip_string_list_contains`, `src/niplists.c:622-637`. -/
def stringContains (m : Mem String) (l : LList) (s : String) : Res Bool := do
  let r ← searchFrom (fun t => s == t) (m.length + 1) m l.first
  ok r.isSome

/-- The inner loop of `nip_int_array_list_contains_subset` (`src/niplists.c:608-613`) looking for a member of `i` that is not in
`data`; arrays of zeros and ones are lists of `Bool`. -/
def notSubset (i data : List Bool) (ni : Nat) : Res Bool := do
  let r ← firstIdx (fun v => do
    let x ← rd i v
    if x then do
      let y ← rd data v
      ok (!y)
    else ok false) 0 ni
  ok r.isSome

/-- The outer loop of `nip_int_array_list_contains_subset`, `src/niplists.c:606-616`. -/
def containsSubsetFrom (i : List Bool) (ni : Nat) : (fuel : Nat) → Mem (List Bool) → Option Nat → Res Bool
  | _, _, none => ok false
  | 0, _, some _ => ub
  | fuel + 1, m, some a => do
    let c ← deref m (some a)
    let flag ← notSubset i c.data ni
    if flag then containsSubsetFrom i ni fuel m c.fwd else ok true

/-- `nip_int_array_list_contains_subset`, `src/niplists.c:598-619`. -/
def containsSubset (m : Mem (List Bool)) (l : LList) (i : List Bool) (ni : Nat) : Res Bool :=
  containsSubsetFrom i ni (m.length + 1) m l.first

end LList
end Nip
