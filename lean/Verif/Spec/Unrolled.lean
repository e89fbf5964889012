import Mathlib.Algebra.BigOperators.Group.Finset.Basic
import Verif.Spec.Weight

/-!
# Specification vocabulary: a network unrolled over time

A network file with temporal links describes one time slice.  The variable `NetFile.next v` of a slice is the variable `v` of the slice
after it.  Nothing here refers to the model of the C code.
-/

namespace Nip.Spec

/-- A file with temporal links that make sense: a variable that has a successor is a parent of something, the successor is a declared
variable with the same number of states, and different variables have different successors. -/
structure NetFile.Temporal {K : Type} (f : NetFile K) : Prop where
  used : ∀ v ∈ f.vars, ∀ u ∈ f.next v, ∃ q ∈ f.pots, v ∈ q.parents
  states : ∀ v ∈ f.vars, ∀ u ∈ f.next v, u ∈ f.vars ∧ f.card u = f.card v
  distinct : ∀ v ∈ f.vars, ∀ w ∈ f.vars, ∀ u, f.next v = some u → f.next w = some u → v = w

variable {K : Type} [Field K] [LinearOrder K]

/-- The numbers for the states of `v` when it is seen in a state (`seen v`; negative: it is not seen). -/
def vision (card : Nat → Nat) (seen : Nat → Int) (v : Nat) : List K :=
  if seen v < 0 then List.replicate (card v) 1 else indicator (card v) (seen v)

open Classical in
/-- The weight of an assignment within one time slice: conditional tables, priors (in the first slice of all variables without parents; in
later slices not of those that are determined by the slice before; useless priors without a positive number are left out), and what is
seen. -/
noncomputable def NetFile.sliceWeight (f : NetFile K) (first : Prop) (seen : Nat → Int) (x : Nat → Nat) : K :=
  weightOf f.net (fun v => (first ∨ f.next v = none) ∧ Usable (f.net.card v) (f.net.prior v)) (vision f.card seen) x

/-- The assignment `x` to a slice goes with the assignment `y` to the slice before. -/
def NetFile.Linked (f : NetFile K) (y x : Nat → Nat) : Prop := ∀ v ∈ f.vars, ∀ u ∈ f.next v, x v = y u

/-- Sum of `F` over all ways of giving states to the variables of the given time slices. -/
def sumSlices (card : Nat → Nat) (vars : List Nat) : List Nat → ((Nat → Nat → Nat) → K) → (Nat → Nat → Nat) → K
  | [], F, X => F X
  | s :: ss, F, X => sumOver card vars (fun x => sumSlices card vars ss F (Function.update X s x)) (fun _ => 0)

open Classical in
/-- The weight of an assignment to the slices `0, …, n - 1` of the unrolled network: the product of the weights of the slices, zero
unless the slices fit together. -/
noncomputable def NetFile.unrolledWeight (f : NetFile K) (seen : Nat → Nat → Int) (n : Nat) (X : Nat → Nat → Nat) : K :=
  if ∀ s, s + 1 < n → f.Linked (X s) (X (s + 1)) then ∏ s ∈ Finset.range n, f.sliceWeight (s = 0) (seen s) (X s) else 0

open Classical in
/-- Total weight of the assignments to the unrolled network of `n` slices that satisfy a condition. -/
noncomputable def NetFile.unrolledTotal (f : NetFile K) (seen : Nat → Nat → Int) (n : Nat) (P : (Nat → Nat → Nat) → Prop) : K :=
  sumSlices f.card f.vars (List.range n) (fun X => if P X then f.unrolledWeight seen n X else 0) (fun _ _ => 0)

/-- Probabilities of the states of variable `v` in slice `t` of the unrolled network of `n` slices, given what is seen in these slices. -/
noncomputable def NetFile.unrolledPosterior (f : NetFile K) (seen : Nat → Nat → Int) (n t v : Nat) : List K :=
  (List.range (f.card v)).map (fun i => f.unrolledTotal seen n (fun X => X t v = i) / f.unrolledTotal seen n (fun _ => True))

open Classical in
/-- The same with zeros if what is seen is impossible. -/
noncomputable def NetFile.posteriorOrZeros (f : NetFile K) (seen : Nat → Nat → Int) (n t v : Nat) : List K :=
  if f.unrolledTotal seen n (fun _ => True) = 0 then List.replicate (f.card v) 0 else f.unrolledPosterior seen n t v

/-- There are links between time slices. -/
def NetFile.Links (f : NetFile K) : Prop := ∃ v ∈ f.vars, f.next v ≠ none

open Classical in
/-- The answer about variable `v` in slice `t`: with links between the slices from all that is seen, without from what is seen in slice `t`. -/
noncomputable def NetFile.answer (f : NetFile K) (seen : Nat → Nat → Int) (n t v : Nat) : List K :=
  if f.Links then f.posteriorOrZeros seen n t v else f.posteriorOrZeros (fun _ => seen t) 1 0 v

/-- The same, but nothing is seen in slice `t`. -/
def hide (seen : Nat → Nat → Int) (t s v : Nat) : Int := if s = t then -1 else seen s v

/-- Probability of what is seen in slice `t` given what is seen in the slices before: how much of the weight is left. -/
noncomputable def NetFile.evidenceProb (f : NetFile K) (seen : Nat → Nat → Int) (t : Nat) : K :=
  f.unrolledTotal seen (t + 1) (fun _ => True) / f.unrolledTotal (hide seen t) (t + 1) (fun _ => True)

/-- What a row of data says about variable `v`: nothing unless the variable is marked and has a column. -/
def rowSees (marked : Nat → Bool) (observed : List Nat) (row : List Int) (v : Nat) : Int :=
  if marked v then row.getD (observed.idxOf v) (-1) else -1

/-- What a time series says: `(data[t])[i]` is about the variable `observed[i]`. -/
def dataSees (marked : Nat → Bool) (observed : List Nat) (data : List (List Int)) (t v : Nat) : Int :=
  rowSees marked observed (data.getD t []) v

end Nip.Spec
