import Verif.Heap
import Verif.PotentialMemory
import Verif.Spec.HeapMemory

/-!
# Model of `src/nipheap.c` with its memory

The memory of `Verif/PotentialMemory.lean` with other blocks.  A content is a number (in C: a pointer and a size); the two functions for the keys are arguments instead of fields.
Simplified: integers are unbounded; negative indices and sizes (which are refused) are left out.
-/

namespace Nip

open Res

/-- `nip_heap_struct`, `src/nipheap.h:44-53` -/
structure QueueCell where
  allocated : Nat
  items : MemPtr
  size : Nat
  heapified : Bool
  updated : MemPtr
deriving Repr, DecidableEq

/-- `nip_int_list_struct`, `src/niplists.h` -/
structure IntHead where
  length : Nat
  first : MemPtr
  last : MemPtr
deriving Repr, DecidableEq

/-- `nip_int_link_struct`, `src/niplists.h` -/
structure IntLink where
  data : Nat
  fwd : MemPtr
  bwd : MemPtr
deriving Repr, DecidableEq

/-- What is in a block. -/
inductive QueueBlock where
  | heap (c : QueueCell)
  | slots (l : List MemPtr)
  | item (x : HeapItem Nat)
  | list (h : IntHead)
  | link (k : IntLink)
deriving Repr, DecidableEq

abbrev QueueMemory := Store QueueBlock

namespace Store

/-- read a queue -/
def queueAt (m : QueueMemory) (p : MemPtr) : Res QueueCell := do
  match ← m.get p with
  | .heap c => ok c
  | _ => ub

/-- read an array of pointers -/
def slotsAt (m : QueueMemory) (p : MemPtr) : Res (List MemPtr) := do
  match ← m.get p with
  | .slots l => ok l
  | _ => ub

/-- read an item -/
def itemAt (m : QueueMemory) (p : MemPtr) : Res (HeapItem Nat) := do
  match ← m.get p with
  | .item x => ok x
  | _ => ub

/-- read a list -/
def intListAt (m : QueueMemory) (p : MemPtr) : Res IntHead := do
  match ← m.get p with
  | .list h => ok h
  | _ => ub

/-- read an entry of a list -/
def intLinkAt (m : QueueMemory) (p : MemPtr) : Res IntLink := do
  match ← m.get p with
  | .link k => ok k
  | _ => ub

/-- `a[i]` -/
def slotAt (m : QueueMemory) (a : MemPtr) (i : Nat) : Res MemPtr := do
  let l ← m.slotsAt a
  rd l i

/-- `a[i] = p` -/
def setSlot (m : QueueMemory) (a : MemPtr) (i : Nat) (p : MemPtr) : Res QueueMemory := do
  let l ← m.slotsAt a
  let l ← wr l i p
  m.put a (.slots l)

/-- `nip_append_int`, `src/niplists.c:141-160`: the error code. -/
def appendInt (m : QueueMemory) (l : MemPtr) (i : Nat) : Res (Nat × QueueMemory) := do
  let null ← l.isNull
  if null then ok (EFAULT, m)
  else do
    let (n, m) := m.alloc (.link { data := 0, fwd := .junk, bwd := .junk })
    if n == .null then ok (ENOMEM, m)
    else do
      let h ← m.intListAt l
      let m ← m.put n (.link { data := i, fwd := .null, bwd := h.last })
      let none ← h.first.isNull
      if none then do
        let m ← m.put l (.list { length := h.length + 1, first := n, last := n })
        ok (0, m)
      else do
        let k ← m.intLinkAt h.last
        let m ← m.put h.last (.link { k with fwd := n })
        let m ← m.put l (.list { length := h.length + 1, first := h.first, last := n })
        ok (0, m)

/-- The loop of `nip_empty_int_list`, `src/niplists.c:460-463`: backwards from `ln`, each time freeing what comes after it.  At most `fuel` rounds; more are undefined. -/
def emptyIntsBack (m : QueueMemory) : (fuel : Nat) → (ln : MemPtr) → Res QueueMemory
  | 0, _ => ub
  | fuel + 1, ln => do
    let null ← ln.isNull
    if null then ok m
    else do
      let k ← m.intLinkAt ln
      let m ← m.free k.fwd
      let k ← m.intLinkAt ln
      m.emptyIntsBack fuel k.bwd

/-- `nip_empty_int_list`, `src/niplists.c:451-468`.  The number of rounds of the loop is bounded by the length of the list. -/
def emptyInts (m : QueueMemory) (l : MemPtr) : Res QueueMemory := do
  let null ← l.isNull
  if null then ok m
  else do
    let h ← m.intListAt l
    let m ← m.put l (.list { h with last := .null })
    let m ← m.emptyIntsBack (h.length + 1) h.last
    let m ← m.free h.first
    m.put l (.list { length := 0, first := .null, last := .null })

/-- `nip_new_heap`, `src/nipheap.c:42-79`, with `nip_new_int_list`, `src/niplists.c:62-73` -/
def newQueue (m : QueueMemory) (size : Nat) : Res (MemPtr × QueueMemory) := do
  if size = 0 then ok (.null, m)
  else do
    let (h, m) := m.alloc (.heap { allocated := 0, items := .junk, size := 0, heapified := false, updated := .junk })
    if h == .null then ok (.null, m)
    else do
      let (a, m) := m.alloc (.slots (List.replicate size .null))
      if a == .null then do
        let m ← m.free h
        ok (.null, m)
      else do
        let (l, m) := m.alloc (.list { length := 0, first := .null, last := .null })
        if l == .null then do
          let m ← m.free a
          let m ← m.free h
          ok (.null, m)
        else do
          let m ← m.put h (.heap { allocated := size, items := a, size := 0, heapified := false, updated := l })
          ok (h, m)

/-- The growth of `nip_heap_insert`, `src/nipheap.c:99-108`: whether there was memory.  A pointer has `ptr` bytes; `realloc` is asked for `2 * allocated` bytes. -/
def growQueue (ptr : Nat) (m : QueueMemory) (p : MemPtr) : Res (Bool × QueueMemory) := do
  let c ← m.queueAt p
  let l ← m.slotsAt c.items
  let i := 2 * c.allocated
  let (b, m) := m.alloc (.slots (l.take (i / ptr) ++ List.replicate (i / ptr - l.length) .junk))
  if b == .null then ok (false, m)
  else do
    let m ← m.free c.items
    let m ← m.put p (.heap { c with items := b, allocated := i })
    let m ← loopDown (i - c.size) (fun k m => m.setSlot b (c.size + k) .null) m
    ok (true, m)

/-- `nip_heap_insert`, `src/nipheap.c:82-116`: the error code. -/
def insertQueue (ptr : Nat) (pk sk : Nat → Int) (m : QueueMemory) (p : MemPtr) (content : Nat) : Res (Nat × QueueMemory) := do
  let (hi, m) := m.alloc (.item { content := content, primary := pk content, secondary := sk content })
  if hi == .null then ok (ENOMEM, m)
  else do
    let c ← m.queueAt p
    let (good, m) ← if c.size = c.allocated then growQueue ptr m p else ok (true, m)
    if !good then ok (ENOMEM, m)
    else do
      let c ← m.queueAt p
      let m ← m.setSlot c.items c.size hi
      let m ← m.put p (.heap { c with size := c.size + 1, heapified := false })
      ok (0, m)

/-- `nip_set_heap_item`, `src/nipheap.c:154-170`: the error code.  The answer of `nip_append_int` is not looked at. -/
def setQueue (pk sk : Nat → Int) (m : QueueMemory) (p : MemPtr) (index content : Nat) : Res (Nat × QueueMemory) := do
  let c ← m.queueAt p
  if c.size ≤ index then ok (EINVAL, m)
  else do
    let s ← m.slotAt c.items index
    let _ ← m.itemAt s
    let m ← m.put s (.item { content := content, primary := pk content, secondary := sk content })
    let (_, m) ← m.appendInt c.updated index
    ok (0, m)

/-- `nip_heap_less_than`, `src/nipheap.c:259-269` -/
def lessIn (m : QueueMemory) (a b : MemPtr) : Res Bool := do
  let n ← a.isNull
  if n then ok false
  else do
    let n ← b.isNull
    if n then ok true
    else do
      let x ← m.itemAt a
      let y ← m.itemAt b
      ok (Heap.lessThan x y)

/-- The index of the least of `i` and its children, `src/nipheap.c:279-288`. -/
def leastChild (m : QueueMemory) (a : MemPtr) (size i : Nat) : Res Nat := do
  let l := 2 * i + 1
  let r := 2 * (i + 1)
  let k ← (if l < size then do
      let x ← m.slotAt a l
      let y ← m.slotAt a i
      let less ← m.lessIn x y
      ok (if less then l else i)
    else ok i)
  if r < size then do
    let x ← m.slotAt a r
    let y ← m.slotAt a k
    let less ← m.lessIn x y
    ok (if less then r else k)
  else ok k

/-- The loop of `nip_min_heapify`, `src/nipheap.c:277-297`.  At most `fuel` rounds; more are undefined. -/
def siftIn (a : MemPtr) (size : Nat) : (fuel : Nat) → QueueMemory → Nat → Res QueueMemory
  | 0, _, _ => ub
  | fuel + 1, m, i => do
    let k ← m.leastChild a size i
    if k ≠ i then do
      let x ← m.slotAt a k
      let y ← m.slotAt a i
      let m ← m.setSlot a k y
      let m ← m.setSlot a i x
      siftIn a size fuel m k
    else ok m

/-- `nip_min_heapify`, `src/nipheap.c:272-298` -/
def heapifyQueue (m : QueueMemory) (p : MemPtr) (i : Nat) : Res QueueMemory := do
  let c ← m.queueAt p
  siftIn c.items c.size (c.size + 1) m i

/-- The loop over the noted replacements, `src/nipheap.c:185-190`.  At most `fuel` rounds; more are undefined. -/
def heapifyNoted (p : MemPtr) : (fuel : Nat) → QueueMemory → MemPtr → Res QueueMemory
  | 0, _, _ => ub
  | fuel + 1, m, il => do
    let null ← il.isNull
    if null then ok m
    else do
      let k ← m.intLinkAt il
      let m ← m.heapifyQueue p k.data
      let k ← m.intLinkAt il
      heapifyNoted p fuel m k.fwd

/-- `nip_build_min_heap`, `src/nipheap.c:173-194` (`NIP_HEAP_PARENT(size - 1)` as in `Heap.build`).  The number of rounds of the loop over the list is bounded by its length. -/
def buildQueue (m : QueueMemory) (p : MemPtr) : Res QueueMemory := do
  let null ← p.isNull
  if null then ok m
  else do
    let c ← m.queueAt p
    let m ← (if !c.heapified then
        loopDown (if c.size = 0 then 0 else (c.size - 2) / 2 + 1) (fun i m => m.heapifyQueue p i) m
      else do
        let h ← m.intListAt c.updated
        heapifyNoted p (h.length + 1) m h.first)
    let m ← m.emptyInts c.updated
    let c ← m.queueAt p
    m.put p (.heap { c with heapified := true })

/-- `nip_heap_extract_min`, `src/nipheap.c:197-227`; `none` is the null pointer for an empty queue. -/
def extractQueue (m : QueueMemory) (p : MemPtr) : Res (Option Nat × QueueMemory) := do
  let c ← m.queueAt p
  if c.size < 1 then ok (none, m)
  else do
    let min ← m.slotAt c.items 0
    let last ← m.slotAt c.items (c.size - 1)
    let m ← m.setSlot c.items 0 last
    let m ← m.setSlot c.items (c.size - 1) .null
    let m ← m.put p (.heap { c with size := c.size - 1 })
    let m ← m.heapifyQueue p 0
    let x ← m.itemAt min
    let m ← m.free min
    ok (some x.content, m)

/-- `nip_free_heap`, `src/nipheap.c:230-249` -/
def freeQueue (m : QueueMemory) (p : MemPtr) : Res QueueMemory := do
  let null ← p.isNull
  if null then ok m
  else do
    let c ← m.queueAt p
    let m ← loop c.size (fun i m => do
      let hi ← m.slotAt c.items i
      let null ← hi.isNull
      if null then ok m else m.free hi) m
    let m ← m.free c.items
    let m ← m.emptyInts c.updated
    let m ← m.free c.updated
    m.free p

/-- one call -/
def queueCall (ptr : Nat) (pk sk : Nat → Int) (m : QueueMemory) (p : MemPtr) : Spec.QueueCall → Res (Spec.QueueAnswer × QueueMemory)
  | .insert c => do
    let (n, m) ← insertQueue ptr pk sk m p c
    ok (.code n, m)
  | .set i c => do
    let (n, m) ← setQueue pk sk m p i c
    ok (.code n, m)
  | .build => do
    let m ← m.buildQueue p
    ok (.code 0, m)
  | .extract => do
    let (c, m) ← m.extractQueue p
    ok (.candidate c, m)

/-- a history of calls -/
def queueCalls (ptr : Nat) (pk sk : Nat → Int) (p : MemPtr) : QueueMemory → List Spec.QueueCall → Res (List Spec.QueueAnswer × QueueMemory)
  | m, [] => ok ([], m)
  | m, a :: l => do
    let (x, m) ← queueCall ptr pk sk m p a
    let (xs, m) ← queueCalls ptr pk sk p m l
    ok (x :: xs, m)

end Store

end Nip
