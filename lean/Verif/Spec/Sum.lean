import Mathlib.Algebra.BigOperators.Group.Finset.Basic
import Mathlib.Logic.Function.Basic

/-!
# Specification vocabulary: assignments and sums over variables

Nothing here refers to the model of the C code.  An assignment gives every variable a state; variable `v` has the states
`0, …, card v - 1`.
-/

namespace Nip.Spec

/-- Sum of `f` over all ways of giving states to the variables `vs`, the other variables keeping the states they have in `x`. -/
def sumOver {K : Type} [AddCommMonoid K] (card : Nat → Nat) : List Nat → ((Nat → Nat) → K) → (Nat → Nat) → K
  | [], f, x => f x
  | v :: vs, f, x => ∑ i ∈ Finset.range (card v), sumOver card vs f (Function.update x v i)

/-- Each of the variables is in one of its states. -/
def Legal (card : Nat → Nat) (vs : List Nat) (x : Nat → Nat) : Prop := ∀ v ∈ vs, x v < card v

end Nip.Spec
