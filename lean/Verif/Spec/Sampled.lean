import Verif.Spec.Generated
import Verif.Spec.Story

/-!
# Vocabulary: files of data drawn from a network file

Lines of words, one word for each node.  Nothing here refers to the model of the C code.
-/

namespace Nip.Spec

variable {K : Type} [Field K] [LinearOrder K]

/-- A network file gives a probability to every story: every node has a potential, with numbers or with parents; whatever the states of the parents, not all
the numbers for the states of the child are zero; and the nodes that stand for nodes of the time step before have no parents. -/
structure NetText.Complete (d : NetText) (value : List Char → K) : Prop where
  potentials : ∀ n ∈ d.nodes, ∃ p ∈ d.pots, p.child = n.name
  numbers : ∀ p ∈ d.pots, p.parents = none → p.data ≠ none
  positive : ∀ p ∈ d.pots, ∀ c ∈ d.combinations, ((List.range (d.card p.child)).map (fun i => p.number d value (d.change c p.child i))).sum ≠ 0
  free : ∀ n ∈ d.nodes, n.next ≠ none → ∀ p ∈ d.pots, p.child = n.name → p.parents = none

/-- In a list of names the parents come before their children. -/
def NetText.ParentsFirst (d : NetText) (columns : List (List Char)) : Prop :=
  ∀ a c b, columns = a ++ c :: b → ∀ p ∈ d.pots, p.child = c → ∀ w ∈ p.parents.getD [], w ∈ a

/-- what the words of a line tell, if each is the name of the state of the node with the name in the same place -/
def rowTells (columns row : List (List Char)) : Findings K := (columns.zip row).map (fun q => (q.1, .state q.2))

/-- What is told before the word at place `j` of line `t`: all the lines before, and the first `j` words of line `t`. -/
def toldBefore (columns : List (List Char)) (rows : List (List (List Char))) (t j : Nat) : List (Findings K) :=
  (rows.take t).map (rowTells columns) ++ [rowTells columns ((rows.getD t []).take j)]

/-- There is one line for each time step, in which there is one word for each name, the name of a state of the node with that name. -/
def NetText.FitsColumns (d : NetText) (columns : List (List Char)) (steps : Nat) (rows : List (List (List Char))) : Prop :=
  rows.length = steps ∧ ∀ row ∈ rows, List.Forall₂ (fun c w => w ∈ d.statesOf c) columns row

/-- Each word is the name of the state in whose interval the random number lies; the intervals are those of the conditional probabilities, given all the words
before. -/
def NetText.Drawn (d : NetText) (value : List Char → K) (columns : List (List Char)) (r : Nat → Nat → K) (rows : List (List (List Char))) : Prop :=
  ∀ (t j : Nat) row c w (k : Nat), rows[t]? = some row → columns[j]? = some c → row[j]? = some w → (d.statesOf c)[k]? = some w →
    InInterval (d.storyPosterior (d.prob value) (toldBefore columns rows t j) t c) (r t j) k

/-- The number `n` is what remains of `a` without its fraction, and `a` is above zero and at most one million. -/
def IsCount (a : K) (n : Nat) : Prop := 0 < a ∧ a ≤ 1000000 ∧ (n : K) ≤ a ∧ a < n + 1

end Nip.Spec
