import Verif.Spec.HuginNet

/-!
# Questions to a network file

The joint distribution that a network file describes, and the answer to a question about one node after findings about others, by names.  Nothing
here refers to the model of the C code.
-/

namespace Nip.Spec

/-- all ways to choose a number below each of the bounds -/
def choices : List Nat → List (List Nat)
  | [] => [[]]
  | n :: ns => (List.range n).flatMap (fun i => (choices ns).map (fun c => i :: c))

/-- Combinations of states: the index of a state for each node, in the order of declaration. -/
def NetText.combinations (d : NetText) : List (List Nat) := choices (d.nodes.map (fun n => n.states.length))

/-- the state of the node with this name -/
def NetText.stateIn (d : NetText) (c : List Nat) (name : List Char) : Nat := c.getD (d.place name) 0

/-- the combination with another state of the node with this name -/
def NetText.change (d : NetText) (c : List Nat) (name : List Char) (i : Nat) : List Nat := c.set (d.place name) i

/-- the names of the states of the node with this name -/
def NetText.statesOf (d : NetText) (name : List Char) : List (List Char) := ((d.nodes.find? (fun n => n.name == name)).map (fun n => n.states)).getD []

/-- the place in the list of numbers: the states of the child vary fastest, those of the first parent slowest -/
def PotText.placeIn (d : NetText) (p : PotText) (c : List Nat) : Nat :=
  (p.parents.getD [] ++ [p.child]).foldl (fun a w => a * d.card w + d.stateIn c w) 0

variable {K : Type} [Field K] [LinearOrder K]

/-- the number written for a combination; without numbers all states are alike -/
def PotText.number (d : NetText) (value : List Char → K) (p : PotText) (c : List Nat) : K :=
  match p.data with
  | none => 1
  | some g => value (g.words.getD (p.placeIn d c) [])

/-- the conditional probability of the child: the number in proportion to those for the other states of the child -/
def PotText.prob (d : NetText) (value : List Char → K) (p : PotText) (c : List Nat) : K :=
  p.number d value c / ((List.range (d.card p.child)).map (fun i => p.number d value (d.change c p.child i))).sum

/-- What the numbers of the potentials mean: a number for each potential and each combination of states. -/
abbrev Reading (K : Type) := PotText → List Nat → K

/-- the conditional probabilities of the children -/
def NetText.prob (d : NetText) (value : List Char → K) : Reading K := fun p c => p.prob d value c

/-- that node of the family of a potential which is declared first -/
def PotText.firstDeclared (d : NetText) (p : PotText) : List Char :=
  ((d.nodes.map (fun n => n.name)).find? (fun w => decide (w ∈ p.child :: p.parents.getD []))).getD []

/-- The number of a potential in proportion to those for the other states of that node which is declared first. -/
def NetText.byFirst (d : NetText) (value : List Char → K) : Reading K := fun p c =>
  p.number d value c / ((List.range (d.card (p.firstDeclared d))).map (fun i => p.number d value (d.change c (p.firstDeclared d) i))).sum

/-- a finding about a node: it is in the state with this name, or a number for each of its states -/
inductive Finding (K : Type) where
  | state (name : List Char)
  | numbers (l : List K)

/-- what a finding says about the state with index `i` of a node with these states -/
def Finding.factor (states : List (List Char)) (i : Nat) : Finding K → K
  | .state w => if states[i]? = some w then 1 else 0
  | .numbers l => l.getD i 0

/-- findings, with the names of the nodes they are about -/
abbrev Findings (K : Type) := List (List Char × Finding K)

/-- what findings say about a combination of states -/
def NetText.support (d : NetText) (told : Findings K) (c : List Nat) : K := (told.map (fun t => t.2.factor (d.statesOf t.1) (d.stateIn c t.1))).prod

/-- the probability of a combination of states times what the findings say about it -/
def NetText.weight (d : NetText) (prob : Reading K) (told : Findings K) (c : List Nat) : K :=
  (d.pots.map (fun p => prob p c)).prod * d.support told c

/-- sum over all combinations -/
def NetText.total (d : NetText) (prob : Reading K) (told : Findings K) : K := (d.combinations.map (d.weight prob told)).sum

/-- sum over the combinations in which the node with this name is in state `i` -/
def NetText.share (d : NetText) (prob : Reading K) (told : Findings K) (name : List Char) (i : Nat) : K :=
  ((d.combinations.filter (fun c => d.stateIn c name == i)).map (d.weight prob told)).sum

/-- the product of the numbers written in the file, for a combination of states, times what the findings say about it -/
def NetText.product (d : NetText) (value : List Char → K) (told : Findings K) (c : List Nat) : K :=
  (d.pots.map (fun p => p.number d value c)).prod * d.support told c

/-- Findings that make sense: about nodes of the network, at most one for each; the states of a node are told apart by their names; a non-negative
number for each state. -/
structure NetText.Sound (d : NetText) (told : Findings K) : Prop where
  nodes : ∀ t ∈ told, ∃ n ∈ d.nodes, n.name = t.1
  distinct : (told.map (fun t => t.1)).Nodup
  states : ∀ t ∈ told, ∀ w, t.2 = .state w → (d.statesOf t.1).Nodup ∧ w ∈ d.statesOf t.1
  numbers : ∀ t ∈ told, ∀ l, t.2 = .numbers l → l.length = d.card t.1 ∧ ∀ a ∈ l, 0 ≤ a

end Nip.Spec
