import Mathlib.Algebra.BigOperators.Group.List.Basic

/-!
# What the memory of potentials should hold

A program creates potentials, copies them, writes properties (a key and a value) to them, asks for properties and frees the potentials.  Potentials are numbered in the order in
which they were created.
-/

namespace Nip.Spec

/-- Calls about potentials. -/
inductive PotCall where
  /-- create a potential; of the array of numbers only is said how long it is (or that it is NULL) -/
  | create (card : List Nat) (dimension : Int) (data : Option Nat)
  /-- copy a potential; the copy is a new potential -/
  | copy (v : Nat)
  /-- write a property; `none` is NULL -/
  | property (v : Nat) (key value : Option String)
  /-- ask for a property -/
  | ask (v : Nat) (key : Option String)
  | free (v : Nat)
deriving Repr, DecidableEq

/-- What became of a call that should create a potential: it was refused (NULL), there is a potential with properties, or it was freed. -/
inductive PotRecord where
  | refused
  | here (properties : List (String × String))
  | freed
deriving Repr, DecidableEq

/-- The blocks of memory needed: five for the potential itself, its two arrays of indices, its numbers and its list, and three for each property (key, value, and place in the list). -/
def PotRecord.blocks : PotRecord → Nat
  | .here l => 5 + 3 * l.length
  | _ => 0

/-- all potentials created so far -/
abbrev PotLedger := List PotRecord

/-- the ledger after a call -/
def PotLedger.after (l : PotLedger) : PotCall → PotLedger
  | .create _ dimension _ => l ++ [if dimension < 0 then .refused else .here []]
  | .copy v => l ++ [match l[v]? with
      | some (.here _) => .here []
      | _ => .refused]
  | .property v (some k) (some x) => l.modify v (fun r => match r with
      | .here ps => .here (ps ++ [(k, x)])
      | r => r)
  | .property _ _ _ => l
  | .ask _ _ => l
  | .free v => l.modify v (fun r => match r with
      | .here _ => .freed
      | r => r)

/-- the value that was first written under a key -/
def firstValue (ps : List (String × String)) (key : String) : Option String := (ps.find? (fun p => p.1 == key)).map (·.2)

/-- the answer to a question -/
def PotLedger.answer (l : PotLedger) : PotCall → List (Option String)
  | .ask v (some k) => [match l[v]? with
      | some (.here ps) => firstValue ps k
      | _ => none]
  | .ask _ none => [none]
  | _ => []

/-- There was such a call, and the potential has not been freed. -/
def PotLedger.Known (l : PotLedger) (v : Nat) : Prop := ∃ r, l[v]? = some r ∧ r ≠ .freed

/-- The call uses only potentials that exist (or NULL), and arrays that are long enough. -/
def PotCall.Allowed (l : PotLedger) : PotCall → Prop
  | .create card dimension data => dimension.toNat ≤ card.length ∧ ∀ n, data = some n → (card.take dimension.toNat).prod ≤ n
  | .copy v => l.Known v
  | .property v _ _ => l.Known v
  | .ask v _ => l.Known v
  | .free v => l.Known v

/-- All calls of a history are allowed. -/
def PotTidy : PotLedger → List PotCall → Prop
  | _, [] => True
  | l, a :: h => a.Allowed l ∧ PotTidy (l.after a) h

/-- the ledger after a history -/
def PotLedger.final (l : PotLedger) (h : List PotCall) : PotLedger := h.foldl PotLedger.after l

/-- the answers to all questions of a history -/
def PotLedger.answers : PotLedger → List PotCall → List (Option String)
  | _, [] => []
  | l, a :: h => l.answer a ++ (l.after a).answers h

/-- all blocks needed -/
def PotLedger.blocks (l : PotLedger) : Nat := (l.map PotRecord.blocks).sum

end Nip.Spec
