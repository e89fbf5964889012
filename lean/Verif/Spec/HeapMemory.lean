import Verif.Heap

/-!
# What a history of calls on a queue means

The history is replayed on the queue of C13 (`Verif/Heap.lean`); for each call a truth value says whether there was memory for it.
-/

namespace Nip.Spec

open Nip Res

/-- calls on a queue of candidates; a candidate is a number -/
inductive QueueCall where
  | insert (c : Nat)
  | set (i c : Nat)
  | build
  | extract
deriving Repr, DecidableEq

/-- what a call answers: an error code, or a candidate if there is one -/
inductive QueueAnswer where
  | code (n : Nat)
  | candidate (c : Option Nat)
deriving Repr, DecidableEq

/-- the item for a candidate -/
def queueItem (pk sk : Nat → Int) (c : Nat) : HeapItem Nat := { content := c, primary := pk c, secondary := sk c }

/-- A call, with or without memory.  A candidate without memory is reported and not inserted; a replacement without memory is made but not noted. -/
def QueueCall.on (pk sk : Nat → Int) (h : Heap Nat) (memory : Bool) : QueueCall → Res (QueueAnswer × Heap Nat)
  | .insert c => if memory then ok (.code 0, { h with items := h.items ++ [queueItem pk sk c], heapified := false }) else ok (.code ENOMEM, h)
  | .set i c =>
    if h.items.length ≤ i then ok (.code EINVAL, h)
    else ok (.code 0, { h with items := h.items.set i (queueItem pk sk c), updated := if memory then h.updated ++ [i] else h.updated })
  | .build => do
    let h ← h.build
    ok (.code 0, h)
  | .extract => do
    let (c, h) ← h.extractMin
    ok (.candidate c, h)

/-- the answers to a history, and the queue after it -/
def replay (pk sk : Nat → Int) : Heap Nat → List (QueueCall × Bool) → Res (List QueueAnswer × Heap Nat)
  | h, [] => ok ([], h)
  | h, a :: l => do
    let (x, h) ← a.1.on pk sk h a.2
    let (xs, h) ← replay pk sk h l
    ok (x :: xs, h)

/-- There are never more than `room` candidates if there are at most `k` now. -/
def Fits (room : Nat) : (k : Nat) → List QueueCall → Prop
  | _, [] => True
  | k, .insert _ :: l => k < room ∧ Fits room (k + 1) l
  | k, .extract :: l => Fits room (k - 1) l
  | k, _ :: l => Fits room k l

/-- an empty queue for `room` candidates -/
def emptyQueue (room : Nat) : Heap Nat := { items := [], allocated := room, bytes := 0, heapified := false, updated := [] }

end Nip.Spec
