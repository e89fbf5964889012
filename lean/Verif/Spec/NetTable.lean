import Mathlib.Data.List.Perm.Basic
import Mathlib.Algebra.Order.Field.Basic
import Verif.Spec.Table

/-!
# What the numbers of a conditional table in a network file mean

The text `potential (child | p1 … pn) { data = (…); }` lists one number for every combination of states; the last parent varies faster
than the first one and the child varies fastest.
-/

namespace Nip.Spec

/-- The list `s` has the variables of `F` in increasing order of identity. -/
structure Sorts (s F : List Nat) : Prop where
  sorted : s.Pairwise (· < ·)
  perm : s.Perm F

/-- The place, in the list of numbers, of the combination `x` of states: the last variable of the list varies fastest. -/
def rowMajor (card x : Nat → Nat) (l : List Nat) : Nat := l.foldl (fun a v => a * card v + x v) 0

/-- The number given in the text for the combination `x` of states. -/
def written {K : Type} [Zero K] (card : Nat → Nat) (child : Nat) (parents : List Nat) (data : List K) (x : Nat → Nat) : K :=
  data.getD (rowMajor card x (parents ++ [child])) 0

/-- the same states, except that the variable `v` has state `i` -/
def withState (x : Nat → Nat) (v i : Nat) : Nat → Nat := fun u => if u = v then i else x u

/-- a combination of states of the variables `F` -/
def Combination (card : Nat → Nat) (F : List Nat) (x : Nat → Nat) : Prop := ∀ v ∈ F, x v < card v

/-- A potential of a file makes sense: the parents named are different variables, not the child, and at least one if there is a bar; all
have states, and there is a non-negative number for every combination of states if there are numbers. -/
structure Declared {K : Type} [Zero K] [LE K] (card : Nat → Nat) (child : Nat) (symbols : Option (List Nat)) (data : Option (List K)) :
    Prop where
  parents : ∀ l, symbols = some l → l ≠ [] ∧ l.Nodup ∧ child ∉ l
  states : ∀ v ∈ child :: symbols.getD [], 0 < card v
  numbers : ∀ d, data = some d → ((child :: symbols.getD []).map card).prod ≤ d.length ∧ ∀ a ∈ d, 0 ≤ a

end Nip.Spec
