import Mathlib.Algebra.BigOperators.Group.List.Basic

/-!
# What the memory of variables should hold

A program creates variables, gives them parents and prior probabilities, and frees them.  Variables are numbered in the order in which they were created.
-/

namespace Nip.Spec

/-- Calls about variables.  Of texts and numbers only is said whether they are given (or NULL). -/
inductive VarCall where
  /-- create a variable; for each state whether its name is given -/
  | create (symbol name : Bool) (states : Option (List Bool))
  /-- copy a variable; the copy is a new variable -/
  | copy (v : Nat)
  /-- set the parents -/
  | parents (v : Nat) (ps : List Nat)
  /-- set the prior probabilities -/
  | prior (v : Nat) (given : Bool)
  /-- put down the places of the variable and its parents in a clique -/
  | mapping (v : Nat)
  /-- prior probabilities, if there are neither parents nor prior probabilities -/
  | defaultPrior (v : Nat)
  | free (v : Nat)
deriving Repr, DecidableEq

/-- What a variable has: number of texts (symbol and name), number of states, parents, prior probabilities, places. -/
structure Holding where
  texts : Nat
  states : Nat
  parents : List Nat := []
  prior : Bool := false
  mapped : Bool := false
deriving Repr, DecidableEq

/-- The blocks of memory needed for a variable: one for the variable itself, one for its likelihood, one for the array of names of states and one for each of these names, one
for each text, one for the array of parents, for the prior probabilities and for the places, if there are any. -/
def Holding.blocks (x : Holding) : Nat :=
  3 + x.texts + x.states + (if x.parents = [] then 0 else 1) + (if x.prior then 1 else 0) + (if x.mapped then 1 else 0)

/-- all variables created so far; `none` if freed -/
abbrev Ledger := List (Option Holding)

/-- The variable exists. -/
def Ledger.Exists (l : Ledger) (v : Nat) : Prop := ∃ x, l[v]? = some (some x)

/-- change what is written about a variable -/
def Ledger.change (l : Ledger) (v : Nat) (g : Holding → Holding) : Ledger := l.modify v (fun o => o.map g)

/-- the ledger after a call -/
def Ledger.after (l : Ledger) : VarCall → Ledger
  | .create symbol name states => l ++ [some { texts := symbol.toNat + name.toNat, states := (states.getD []).length }]
  | .copy v => l ++ [l.getD v none]
  | .parents v ps => l.change v (fun x => { x with parents := ps })
  | .prior v given => l.change v (fun x => { x with prior := x.prior || given })
  | .mapping v => l.change v (fun x => { x with mapped := true })
  | .defaultPrior v => l.change v (fun x => { x with prior := x.prior || (x.parents == []) })
  | .free v => l.set v none

/-- The call uses only variables that exist. -/
def VarCall.Allowed (l : Ledger) : VarCall → Prop
  | .create _ _ _ => True
  | .parents v ps => l.Exists v ∧ ∀ p ∈ ps, l.Exists p
  | .mapping v => l.Exists v ∧ ∀ x, l[v]? = some (some x) → ∀ p ∈ x.parents, l.Exists p
  | .copy v => l.Exists v
  | .prior v _ => l.Exists v
  | .defaultPrior v => l.Exists v
  | .free v => l.Exists v

/-- All calls of a history use only variables that exist. -/
def Tidy : Ledger → List VarCall → Prop
  | _, [] => True
  | l, a :: h => a.Allowed l ∧ Tidy (l.after a) h

/-- the ledger after a history -/
def Ledger.final (l : Ledger) (h : List VarCall) : Ledger := h.foldl Ledger.after l

/-- all blocks needed -/
def Ledger.blocks (l : Ledger) : Nat := (l.map (fun o => (o.map Holding.blocks).getD 0)).sum

/-- Nothing is copied, and the names of all states are given. -/
def VarCall.Plain : VarCall → Prop
  | .create _ _ states => ∃ l, states = some l ∧ ∀ b ∈ l, b = true
  | .copy _ => False
  | _ => True

end Nip.Spec
