import Mathlib.Algebra.BigOperators.Group.List.Basic
import Mathlib.Algebra.Order.Field.Basic

/-!
# Specification vocabulary: tables indexed by tuples

Nothing here refers to the model of the C code.  A table is addressed by tuples of state indices; sums over a
table are sums over *all* tuples.
-/

namespace Nip.Spec

/-- `idx` has one index per dimension and each is below the cardinality of its dimension. -/
def InRange (card idx : List Nat) : Prop := List.Forall₂ (· < ·) idx card

instance (card idx : List Nat) : Decidable (InRange card idx) := by
  unfold InRange; infer_instance

/-- Every cardinality is positive. -/
def Positive (card : List Nat) : Prop := ∀ c ∈ card, 0 < c

instance (card : List Nat) : Decidable (Positive card) := by unfold Positive; infer_instance

/-- Place of a tuple in a flat table in which the first dimension varies fastest:
`i₀ + c₀ * (i₁ + c₁ * (i₂ + ...))`. -/
def position : (card idx : List Nat) → Nat
  | c :: cs, i :: is => i + c * position cs is
  | _, _ => 0

/-- All tuples in range. -/
def tuples : (card : List Nat) → List (List Nat)
  | [] => [[]]
  | c :: cs => (tuples cs).flatMap (fun t => (List.range c).map (fun i => i :: t))

/-- The cell of a flat table addressed by a tuple (`0` outside the table; only used for tuples in range of a
table of the right size, see `position_lt`). -/
def cellOf {K : Type} [Zero K] (card : List Nat) (data : List K) (idx : List Nat) : K :=
  data.getD (position card idx) 0

/-- The components of a tuple selected by `mapping`. -/
def project (mapping idx : List Nat) : List Nat := mapping.map (fun m => idx.getD m 0)

/-- `∑ f x` over all tuples `x` in range that satisfy `P`. -/
def sumTuples {K : Type} [AddCommMonoid K] (card : List Nat) (P : List Nat → Prop) [DecidablePred P]
    (f : List Nat → K) : K :=
  ((tuples card).map (fun x => if P x then f x else 0)).sum

/-- `mapping` names dimensions of a table with cardinalities `card`; the named dimensions have cardinalities `sub`. -/
def Into (card mapping sub : List Nat) : Prop :=
  (∀ m ∈ mapping, m < card.length) ∧ sub = mapping.map (fun m => card.getD m 0)

instance (card mapping sub : List Nat) : Decidable (Into card mapping sub) := by
  unfold Into; infer_instance

end Nip.Spec
