import Verif.Spec.Lines
import Verif.Spec.Story

/-!
# Specification: what reports about a data file say

For properties C91, C92 and C93.  Nothing here refers to the model of the C code.
-/

namespace Nip.Spec

variable {K : Type} [Field K] [LinearOrder K]

/-- what is told about the nodes with other names -/
def aboutOthers (names : List (List Char)) (told : Findings K) : Findings K := told.filter (fun t => decide (t.1 ∉ names))

/-- the conditional probability of everything that is told, given what is told about the nodes with other names than these -/
def NetText.conditional (d : NetText) (prob : Reading K) (names : List (List Char)) (told : Findings K) : K :=
  d.total prob told / d.total prob (aboutOthers names told)

/-- sum over all combinations, of the product of the potentials that count in a time step times what is told -/
def NetText.stepTotal (d : NetText) (prob : Reading K) (first : Bool) (told : Findings K) : K :=
  (d.combinations.map (fun c => d.stepProb prob first c * d.support told c)).sum

/-- a line of words with spaces between them -/
def spacedLine (words : List (List Char)) : List Char := List.intercalate [' '] words ++ ['\n']

/-- sum over the combinations in which the nodes with these names are in the states with these indices -/
def NetText.jointShare (d : NetText) (prob : Reading K) (told : Findings K) (names : List (List Char)) (is : List Nat) : K :=
  ((d.combinations.filter (fun c => names.map (d.stateIn c) == is)).map (d.weight prob told)).sum

/-- all ways to choose a number below each of the bounds, the first one changes fastest -/
def firstFastest : List Nat → List (List Nat)
  | [] => [[]]
  | n :: ns => (firstFastest ns).flatMap (fun c => (List.range n).map (fun i => i :: c))

/-- a number in decimal digits -/
def inDigits (n : Nat) : List Char := Nat.toDigits 10 n

/-- `P(0, 1) = 0.25` -/
def cellLine (is : List Nat) (number : List Char) : List Char :=
  "P(".toList ++ List.intercalate ", ".toList (is.map inDigits) ++ ") = ".toList ++ number ++ ['\n']

/-- The node is a parent in a potential. -/
def NetText.IsParent (d : NetText) (w : List Char) : Prop := ∃ p ∈ d.pots, w ∈ p.parents.getD []

/-- The nodes are neighbours: they occur in the same potential, or both are parents with a successor, or both are successors of parents. -/
def NetText.Neighbours (d : NetText) (a b : List Char) : Prop :=
  (∃ p ∈ d.pots, a ∈ p.child :: p.parents.getD [] ∧ b ∈ p.child :: p.parents.getD []) ∨
  ((d.IsParent a ∧ d.nextOf a ≠ none) ∧ d.IsParent b ∧ d.nextOf b ≠ none) ∨
  ((∃ u, d.IsParent u ∧ d.nextOf u = some a) ∧ ∃ u, d.IsParent u ∧ d.nextOf u = some b)

end Nip.Spec
