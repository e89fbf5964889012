import Verif.Spec.HuginNet

/-!
# What is asked of a network file
-/

namespace Nip.Spec

/-- the states of a node that are given last -/
def NodeText.lastStates (n : NodeText) : Option (List (List Char)) := (n.fields.filterMap NodeField.statesOf).getLast?

/-- the position of a node that is given last -/
def NodeText.lastPosition (n : NodeText) : Option (List Char × List Char) := (n.fields.filterMap NodeField.positionOf).getLast?

/-- the first node with this name, where the names of the nodes are cut to 40 characters -/
def NetText.called (d : NetText) (w : List Char) : Option NodeText := d.nodes.find? (fun n => n.name.take 40 == w)

/-- its number of states -/
def NetText.count (d : NetText) (w : List Char) : Nat := ((d.called w).bind NodeText.lastStates).elim 0 List.length

variable {K : Type} [Field K] [LinearOrder K]

/-- What a network file must have to be accepted. -/
structure NetText.Required (int : List Char → Option Nat) (d : NetText) : Prop where
  nodes : d.nodes ≠ []
  potentials : d.pots ≠ []
  states : ∀ n ∈ d.nodes, ∃ l, n.lastStates = some l ∧ l ≠ []
  positions : ∀ n ∈ d.nodes, ∀ x y, .position x y ∈ n.fields → (int x).isSome ∧ (int y).isSome
  sizes : ∀ x y, .size x y ∈ d.frame.fields → (int x).isSome ∧ (int y).isSome
  next : ∀ n ∈ d.nodes, ∀ w, n.next = some w → (∃ m, d.called w = some m) ∧ n.lastStates.elim 0 List.length = d.count w
  names : ∀ p ∈ d.pots, ∀ w ∈ p.child :: p.parents.getD [], ∃ m, d.called w = some m
  parents : ∀ p ∈ d.pots, p.parents ≠ some []
  numbers : ∀ p ∈ d.pots, ∀ g, p.data = some g → g.words ≠ [] ∧ ((p.child :: p.parents.getD []).map d.count).prod ≤ g.words.length

/-- What nobody looks at: names cut to 40 characters are whole, no name or field is given twice, parents are different from each other and
from the child, no number is negative, no child has two potentials. -/
structure NetText.Careful (value : List Char → K) (d : NetText) : Prop where
  short : ∀ n ∈ d.nodes, n.name.length ≤ 40
  names : (d.nodes.map (fun n => n.name)).Nodup
  fields : ∀ n ∈ d.nodes, n.fields.Pairwise (fun a b => a.same b = false)
  distinct : ∀ p ∈ d.pots, (p.child :: p.parents.getD []).Nodup
  positive : ∀ p ∈ d.pots, ∀ g, p.data = some g → ∀ w ∈ g.words, 0 ≤ value w
  children : (d.pots.map (fun p => p.child)).Nodup

/-- A network file makes sense and describes a Bayesian network: besides, the names of the states of a node are different, and the potentials do not
go in a circle. -/
structure NetText.Meaningful (value : List Char → K) (int : List Char → Option Nat) (d : NetText) : Prop where
  sensible : d.Sensible value int
  states : ∀ n ∈ d.nodes, n.states.Nodup
  order : ∃ rank : List Char → Nat, ∀ p ∈ d.pots, ∀ w ∈ p.parents.getD [], rank w < rank p.child

end Nip.Spec
