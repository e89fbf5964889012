import Verif.Basic

/-!
# Model of `src/nipheap.c`

The array `heap_items` is the list of the items in use (slots `0 .. heap_size - 1`, never null there); the memory it lives in
is tracked separately as a number of bytes, so that writes outside it are visible.  Contents are values of a type `α`
(in C: a pointer and a size).
-/

namespace Nip

open Res

/-- `nip_heap_item_struct`, `src/nipheap.h:33-38`. -/
structure HeapItem (α : Type) where
  content : α
  primary : Int
  secondary : Int
deriving Repr, DecidableEq

/-- `nip_heap_struct`, `src/nipheap.h:44-53`.  `items.length` is `heap_size`.  `bytes` is not a field of the C structure: it is
the size of the memory block `heap_items` points to.  The two key functions are arguments of the operations instead of
fields. -/
structure Heap (α : Type) where
  items : List (HeapItem α)
  allocated : Nat
  bytes : Nat
  heapified : Bool
  updated : List Nat
deriving Repr, DecidableEq

namespace Heap

variable {α : Type}

/-- A pointer sized slot `k` lies within a block of `bytes` bytes, `ptr` being the size of a pointer. -/
def slot (ptr bytes k : Nat) : Res Unit := if (k + 1) * ptr ≤ bytes then ok () else ub

/-- `nip_new_heap`, `src/nipheap.c:42-79`; `none` is the null pointer for a size of zero or less. -/
def new (ptr : Nat) (initialSize : Int) : Option (Heap α) :=
  if initialSize ≤ 0 then none
  else some { items := [], allocated := initialSize.toNat, bytes := initialSize.toNat * ptr,
              heapified := false, updated := [] }

/-- `nip_heap_insert`, `src/nipheap.c:82-116`.  The call `realloc(h->heap_items, i)` asks for `i` *bytes*. -/
def insert (ptr : Nat) (pk sk : α → Int) (h : Heap α) (content : α) : Res (Heap α) := do
  let hi : HeapItem α := { content := content, primary := pk content, secondary := sk content }
  let h ← (if h.items.length = h.allocated then do
      let i := 2 * h.allocated
      let h := { h with bytes := i, allocated := i }
      -- for(i = allocated_size - 1; i >= heap_size; i--) heap_items[i] = NULL;
      loopDown (h.allocated - h.items.length) (fun k (h : Heap α) => do
        slot ptr h.bytes (h.items.length + k)
        ok h) h
    else ok h)
  slot ptr h.bytes h.items.length
  ok { h with items := h.items ++ [hi], heapified := false }

/-- `nip_search_heap_item`, `src/nipheap.c:119-136`; `none` is `-1`. -/
def search (h : Heap α) (comparison : α → Bool) : Option Nat :=
  h.items.findIdx? (fun hi => comparison hi.content)

/-- `nip_get_heap_item`, `src/nipheap.c:139-151`; `none` is the null pointer. -/
def getItem (h : Heap α) (index : Int) : Option α :=
  if index < 0 ∨ index ≥ (h.items.length : Int) then none
  else (h.items[index.toNat]?).map (·.content)

/-- `nip_set_heap_item`, `src/nipheap.c:154-170`: error code and new heap. -/
def setItem (pk sk : α → Int) (h : Heap α) (index : Int) (content : α) (size : Int) : Nat × Heap α :=
  if index < 0 ∨ index ≥ (h.items.length : Int) ∨ size ≤ 0 then (EINVAL, h)
  else
    (0, { h with
      items := h.items.set index.toNat
        { content := content, primary := pk content, secondary := sk content }
      updated := h.updated ++ [index.toNat] })

/-- `nip_heap_less_than`, `src/nipheap.c:259-269` (items in use are never null). -/
def lessThan (a b : HeapItem α) : Bool :=
  a.primary < b.primary || (a.primary == b.primary && a.secondary < b.secondary)

/-- The index of the least of `i` and its children, `src/nipheap.c:279-287`. -/
def minChild (items : List (HeapItem α)) (i : Nat) : Res Nat := do
  let l := 2 * i + 1
  let r := 2 * (i + 1)
  let m ← (if l < items.length then do
      let a ← rd items l
      let b ← rd items i
      ok (if lessThan a b then l else i)
    else ok i)
  if r < items.length then do
    let a ← rd items r
    let b ← rd items m
    ok (if lessThan a b then r else m)
  else ok m

/-- `nip_min_heapify`, `src/nipheap.c:272-298`.  `fuel` bounds the number of rounds; running out of it would be an endless loop
and is reported as `ub`. -/
def siftDown : (fuel : Nat) → List (HeapItem α) → Nat → Res (List (HeapItem α))
  | 0, _, _ => ub
  | fuel + 1, items, i => do
    let m ← minChild items i
    if m ≠ i then do
      let a ← rd items m
      let b ← rd items i
      let items ← wr items m b
      let items ← wr items i a
      siftDown fuel items m
    else ok items

/-- `nip_min_heapify(h, i)`. -/
def minHeapify (items : List (HeapItem α)) (i : Nat) : Res (List (HeapItem α)) :=
  siftDown (items.length + 1) items i

/-- `nip_build_min_heap`, `src/nipheap.c:173-194` (`NIP_HEAP_PARENT(size - 1)` is `(size - 2) / 2`, truncated towards zero:
`-1` for `size = 0`, `0` for `size = 1`). -/
def build (h : Heap α) : Res (Heap α) := do
  let items ← (if !h.heapified then
      loopDown (if h.items.length = 0 then 0 else (h.items.length - 2) / 2 + 1)
        (fun i items => minHeapify items i) h.items
    else h.updated.foldlM (fun items i => minHeapify items i) h.items)
  ok { h with items := items, updated := [], heapified := true }

/-- `nip_heap_extract_min`, `src/nipheap.c:197-227`; `none` is the null pointer for an empty heap. -/
def extractMin (h : Heap α) : Res (Option α × Heap α) :=
  if h.items.length < 1 then ok (none, h)
  else do
    let min ← rd h.items 0
    let last ← rd h.items (h.items.length - 1)
    let items ← wr h.items 0 last
    let items ← minHeapify items.dropLast 0
    ok (some min.content, { h with items := items })

end Heap
end Nip
