import Verif.Spec.Learn

/-!
# Specification vocabulary: data drawn one after the other

The values of each time step are drawn variable by variable in some order.  Nothing here refers to the model of the C code.
-/

namespace Nip.Spec

variable {K : Type} [Field K] [LinearOrder K]

/-- What is known about variable `v` from the first `i` values of a row, whose places belong to the variables `order` (negative: nothing). -/
def known (order : List Nat) (row : List Int) (i v : Nat) : Int := if order.idxOf v < i then row.getD (order.idxOf v) (-1) else -1

/-- What is known about variable `v` of slice `s` just before the value of place `i` of time step `t` is drawn: all the slices before, and the
first `i` values of slice `t`. -/
def drawnBefore (order : List Nat) (data : List (List Int)) (t i s v : Nat) : Int :=
  if s < t then known order (data.getD s []) order.length v else if s = t then known order (data.getD t []) i v else -1

/-- The number `r` lies in the interval of state `k`, if the states divide the interval from `0` to `1` among them in proportion to their
probabilities: beyond the probabilities of the states before it, and not beyond its own. -/
def InInterval (p : List K) (r : K) (k : Nat) : Prop := (k = 0 ∨ (p.take k).sum < r) ∧ r ≤ (p.take (k + 1)).sum

/-- How probable the value at place `i` of time step `t` is, given the values drawn before it. -/
noncomputable def NetFile.chance (f : NetFile K) (order : List Nat) (data : List (List Int)) (t i : Nat) : K :=
  (f.unrolledPosterior (drawnBefore order data t i) (t + 1) t (order.getD i 0)).getD ((data.getD t []).getD i 0).toNat 0

/-- Each variable has a table, the tables are conditional probabilities, parents can be put before children, and the variables that stand for variables
of the slice before have no parents. -/
structure NetFile.Proper (f : NetFile K) : Prop where
  complete : ∀ v ∈ f.vars, ∃ q ∈ f.pots, q.child = v
  normalised : f.Normalised
  acyclic : f.Acyclic
  free : ∀ v ∈ f.vars, f.next v ≠ none → ∀ q ∈ f.pots, q.child = v → q.parents = []

end Nip.Spec
