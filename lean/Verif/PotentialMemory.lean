import Verif.VariableMemory
import Verif.Spec.PotentialMemory

/-!
# The memory of potentials

Blocks of memory at addresses that are given in order, as in `Verif/VariableMemory.lean`; an address is not given again.  Simplified: of an array of numbers (`double`) only the
length is kept (the numbers are in `Verif/Potential.lean`), and the integers are unbounded (see `Verif/PotentialInt.lean`).
-/

namespace Nip

open Res

/-- Memory with blocks of any kind: the blocks in use, the number of calls of `malloc` and `calloc` so far, and which of these calls fail. -/
structure Store (B : Type) where
  blocks : Nat → Option B
  next : Nat
  fails : Nat → Bool

namespace Store

variable {B : Type}

/-- nothing has been allocated -/
def empty (fails : Nat → Bool) : Store B := { blocks := fun _ => none, next := 0, fails := fails }

/-- the number of blocks in use -/
def inUse (m : Store B) : Nat := ((List.range m.next).filter (fun b => (m.blocks b).isSome)).length

/-- `malloc` and `calloc`.  Simplified: a call for zero bytes gives a block like any other (C allows NULL). -/
def alloc (m : Store B) (b : B) : MemPtr × Store B :=
  if m.fails m.next then (.null, { m with next := m.next + 1 })
  else (.block m.next, { m with blocks := Function.update m.blocks m.next (some b), next := m.next + 1 })

/-- `free` -/
def free (m : Store B) : MemPtr → Res (Store B)
  | .junk => ub
  | .null => ok m
  | .block a =>
    match m.blocks a with
    | none => ub
    | some _ => ok { m with blocks := Function.update m.blocks a none }

/-- read a block -/
def get (m : Store B) : MemPtr → Res B
  | .block a =>
    match m.blocks a with
    | some b => ok b
    | none => ub
  | _ => ub

/-- write a block -/
def put (m : Store B) (p : MemPtr) (b : B) : Res (Store B) :=
  match p with
  | .block a =>
    match m.blocks a with
    | some _ => ok { m with blocks := Function.update m.blocks a (some b) }
    | none => ub
  | _ => ub

end Store

/-- `nip_potential_struct`, `src/nippotential.h:45-55` -/
structure PotCell where
  dim : Nat
  size : Nat
  card : MemPtr
  temp : MemPtr
  data : MemPtr
  properties : MemPtr
deriving Repr, DecidableEq

/-- `nip_string_pair_list_struct`, `src/niplists.h` -/
structure PairHead where
  length : Nat
  first : MemPtr
  last : MemPtr
deriving Repr, DecidableEq

/-- `nip_string_pair_link_struct`, `src/niplists.h` -/
structure PairLink where
  key : MemPtr
  value : MemPtr
  fwd : MemPtr
  bwd : MemPtr
deriving Repr, DecidableEq

/-- What is in a block. -/
inductive PotBlock where
  | potential (c : PotCell)
  | ints (l : List Nat)
  | reals (n : Nat)
  | list (h : PairHead)
  | link (k : PairLink)
  | text (s : String)
deriving Repr, DecidableEq

abbrev PotMemory := Store PotBlock

namespace Store

/-- read a potential -/
def potentialAt (m : PotMemory) (p : MemPtr) : Res PotCell := do
  match ← m.get p with
  | .potential c => ok c
  | _ => ub

/-- read an array of integers -/
def intsAt (m : PotMemory) (p : MemPtr) : Res (List Nat) := do
  match ← m.get p with
  | .ints l => ok l
  | _ => ub

/-- the length of an array of numbers -/
def realsAt (m : PotMemory) (p : MemPtr) : Res Nat := do
  match ← m.get p with
  | .reals n => ok n
  | _ => ub

/-- read a list -/
def listAt (m : PotMemory) (p : MemPtr) : Res PairHead := do
  match ← m.get p with
  | .list h => ok h
  | _ => ub

/-- read a place of a list -/
def linkAt (m : PotMemory) (p : MemPtr) : Res PairLink := do
  match ← m.get p with
  | .link k => ok k
  | _ => ub

/-- read a text -/
def textAt (m : PotMemory) (p : MemPtr) : Res String := do
  match ← m.get p with
  | .text s => ok s
  | _ => ub

/-- free a place of a list with its key and value, `src/niplists.c:577-579` and `:584-586` -/
def freePair (m : PotMemory) (p : MemPtr) : Res PotMemory := do
  let k ← m.linkAt p
  let m ← m.free k.key
  let m ← m.free k.value
  m.free p

/-- The loop of `nip_free_string_pair_list`, `src/niplists.c:575-582`: backwards from `ln`, each time freeing what comes after it.  At most `fuel` rounds; more are undefined. -/
def freeBack (m : PotMemory) : (fuel : Nat) → (ln : MemPtr) → Res PotMemory
  | 0, _ => ub
  | fuel + 1, ln => do
    let null ← ln.isNull
    if null then ok m
    else do
      let k ← m.linkAt ln
      let null ← k.fwd.isNull
      let m ← if null then ok m else m.freePair k.fwd
      let k ← m.linkAt ln
      m.freeBack fuel k.bwd

/-- `nip_free_string_pair_list`, `src/niplists.c:565-594`.  The number of rounds of the loop is bounded by the length of the list. -/
def freePairs (m : PotMemory) (l : MemPtr) : Res PotMemory := do
  let null ← l.isNull
  if null then ok m
  else do
    let h ← m.listAt l
    let m ← m.put l (.list { h with last := .null })
    let m ← m.freeBack (h.length + 1) h.last
    let null ← h.first.isNull
    let m ← if null then ok m else m.freePair h.first
    let m ← m.put l (.list { length := 0, first := .null, last := .null })
    m.free l

/-- `nip_free_potential`, `src/nippotential.c:200-209`. -/
def freePotential (m : PotMemory) (p : MemPtr) : Res PotMemory := do
  let null ← p.isNull
  if null then ok m
  else do
    let c ← m.potentialAt p
    let m ← m.freePairs c.properties
    let m ← m.free c.card
    let m ← m.free c.temp
    let m ← m.free c.data
    m.free p

/-- The size and the array of cardinalities, `src/nippotential.c:121-128`; `row` is the new array. -/
def fillCard (card : List Nat) (d : Nat) (row : List Nat) : Res (Nat × List Nat) := do
  let r ← loop d (fun i (st : Nat × List Nat) => do
    let x ← rd card i
    let row ← wr st.2 i x
    ok (st.1 * x, row)) (1, row)
  let row ← if d = 0 then wr r.2 0 1 else ok r.2
  ok (r.1, row)

/-- `nip_new_potential`, `src/nippotential.c:84-150`.  `data` is the length of the array given, or NULL. -/
def newPotential (m : PotMemory) (card : List Nat) (dimension : Int) (data : Option Nat) : Res (MemPtr × PotMemory) :=
  if dimension < 0 then ok (.null, m)
  else do
    let d := dimension.toNat
    let (p, m) := m.alloc (.potential { dim := 0, size := 0, card := .junk, temp := .junk, data := .junk, properties := .junk })
    if p == .null then ok (.null, m)
    else do
      let zeros := List.replicate (if 0 < d then d else 1) 0
      let (c, m) := m.alloc (.ints zeros)
      let (t, m) := m.alloc (.ints zeros)
      let m ← m.put p (.potential { dim := 0, size := 0, card := c, temp := t, data := .junk, properties := .junk })
      if c == .null || t == .null then do
        let m ← m.free c
        let m ← m.free p
        ok (.null, m)
      else do
        let (size, row) ← fillCard card d zeros
        let m ← m.put c (.ints row)
        let (a, m) := m.alloc (.reals size)
        let m ← m.put p (.potential { dim := d, size := size, card := c, temp := t, data := a, properties := .junk })
        if a == .null then do
          let m ← m.freePotential p
          ok (.null, m)
        else if data.isSome && decide (data.getD 0 < size) then ub
        else do
          let (l, m) := m.alloc (.list { length := 0, first := .null, last := .null })
          let m ← m.put p (.potential { dim := d, size := size, card := c, temp := t, data := a, properties := l })
          ok (p, m)

/-- `nip_copy_potential`, `src/nippotential.c:174-181`. -/
def copyPotential (m : PotMemory) (p : MemPtr) : Res (MemPtr × PotMemory) := do
  let null ← p.isNull
  if null then ok (.null, m)
  else do
    let c ← m.potentialAt p
    let card ← m.intsAt c.card
    let n ← m.realsAt c.data
    m.newPotential card c.dim (some n)

/-- `nip_append_string_pair`, `src/niplists.c:207-230`.  Returns whether there was an error. -/
def appendPair (m : PotMemory) (l key value : MemPtr) : Res (Bool × PotMemory) := do
  let n1 ← l.isNull
  let n2 ← key.isNull
  let n3 ← value.isNull
  if n1 || n2 || n3 then ok (true, m)
  else do
    let (new, m) := m.alloc (.link { key := .junk, value := .junk, fwd := .junk, bwd := .junk })
    if new == .null then ok (true, m)
    else do
      let h ← m.listAt l
      let m ← m.put new (.link { key := key, value := value, fwd := .null, bwd := h.last })
      let none ← h.first.isNull
      let m ← if none then ok m
        else do
          let k ← m.linkAt h.last
          m.put h.last (.link { k with fwd := new })
      let m ← m.put l (.list { length := h.length + 1, first := if none then new else h.first, last := new })
      ok (false, m)

/-- `nip_set_potential_property`, `src/nippotential.c:153-160`.  Returns whether there was an error. -/
def setProperty (m : PotMemory) (p key value : MemPtr) : Res (Bool × PotMemory) := do
  let n1 ← p.isNull
  let n2 ← key.isNull
  let n3 ← value.isNull
  if n1 || n2 || n3 then ok (true, m)
  else do
    let c ← m.potentialAt p
    m.appendPair c.properties key value

/-- The loop of `nip_string_pair_list_search`, `src/niplists.c:650-656`.  At most `fuel` rounds; more are undefined. -/
def search (m : PotMemory) (key : String) : (fuel : Nat) → (s : MemPtr) → Res MemPtr
  | 0, _ => ub
  | fuel + 1, s => do
    let null ← s.isNull
    if null then ok .null
    else do
      let k ← m.linkAt s
      let t ← m.textAt k.key
      if key == t then ok k.value else m.search key fuel k.fwd

/-- `nip_get_potential_property`, `src/nippotential.c:162-172`, with `nip_string_pair_list_search`, `src/niplists.c:643-657`. -/
def getProperty (m : PotMemory) (p : MemPtr) (key : Option String) : Res MemPtr := do
  let null ← p.isNull
  match null, key with
  | false, some key => do
    let c ← m.potentialAt p
    let null ← c.properties.isNull
    if null then ok .null
    else do
      let h ← m.listAt c.properties
      m.search key (h.length + 1) h.first
  | _, _ => ok .null

/-- The caller makes a text. -/
def newText (m : PotMemory) (s : Option String) : MemPtr × PotMemory :=
  match s with
  | none => (.null, m)
  | some s => m.alloc (.text s)

/-- The caller makes key and value and gives them to the potential; if it does not take them, they are freed.  (Nothing in the repository calls `nip_set_potential_property`.) -/
def writeProperty (m : PotMemory) (p : MemPtr) (key value : Option String) : Res PotMemory := do
  let (k, m) := m.newText key
  let (x, m) := m.newText value
  let (err, m) ← m.setProperty p k x
  if err then do
    let m ← m.free k
    m.free x
  else ok m

/-- The caller asks for a property and reads the value. -/
def readProperty (m : PotMemory) (p : MemPtr) (key : Option String) : Res (Option String) := do
  let v ← m.getProperty p key
  let null ← v.isNull
  if null then ok none
  else do
    let s ← m.textAt v
    ok (some s)

end Store

/-- the memory, the potentials created, in order, and the answers so far -/
structure PotWorld where
  mem : PotMemory
  pots : List MemPtr
  answers : List (Option String)

/-- one call -/
def PotWorld.step (w : PotWorld) : Spec.PotCall → Res PotWorld
  | .create card dimension data => do
    let (p, m) ← w.mem.newPotential card dimension data
    ok { w with mem := m, pots := w.pots ++ [p] }
  | .copy v => do
    let p ← rd w.pots v
    let (p, m) ← w.mem.copyPotential p
    ok { w with mem := m, pots := w.pots ++ [p] }
  | .property v key value => do
    let p ← rd w.pots v
    let m ← w.mem.writeProperty p key value
    ok { w with mem := m }
  | .ask v key => do
    let p ← rd w.pots v
    let x ← w.mem.readProperty p key
    ok { w with answers := w.answers ++ [x] }
  | .free v => do
    let p ← rd w.pots v
    let m ← w.mem.freePotential p
    ok { w with mem := m }

/-- a history of calls -/
def PotWorld.run (w : PotWorld) : List Spec.PotCall → Res PotWorld
  | [] => ok w
  | a :: h => do
    let w ← w.step a
    w.run h

end Nip
