import Verif.Spec.Network
import Verif.Spec.Potential

/-!
# Specification vocabulary: what a network file describes

Of the model only the data type of potentials (tables) is used.
-/

namespace Nip.Spec

/-- A table of a network file: of the child given its parents.  The dimensions of the table are the members of the family in increasing
order of identity. -/
structure Parsed (K : Type) where
  child : Nat
  parents : List Nat
  table : Potential K

/-- A network file: the variables in the order of their declaration, their numbers of states, the variable standing for the same thing in
the next time slice, and the tables. -/
structure NetFile (K : Type) where
  vars : List Nat
  card : Nat → Nat
  next : Nat → Option Nat
  pots : List (Parsed K)

variable {K : Type} [Zero K] [LinearOrder K]

/-- A child and its parents, in increasing order of identity. -/
def NetFile.family {K : Type} (f : NetFile K) (q : Parsed K) : List Nat := f.vars.filter (fun v => decide (v = q.child ∨ v ∈ q.parents))

/-- A file whose parts fit together: identities increase in the order of declaration; every variable has states; tables are about declared
variables, at most one for each child, a variable is not its own parent; a table has a number for every combination of
states of the family.  (The graph may even have directed cycles.) -/
structure NetFile.Fits {K : Type} (f : NetFile K) : Prop where
  sorted : f.vars.Pairwise (· < ·)
  ids : ∀ v ∈ f.vars, 0 < v
  states : ∀ v ∈ f.vars, 0 < f.card v
  tables : f.pots ≠ []
  child : ∀ q ∈ f.pots, q.child ∈ f.vars
  parents : ∀ q ∈ f.pots, q.parents.Nodup ∧ ∀ u ∈ q.parents, u ∈ f.vars ∧ u ≠ q.child
  distinct : (f.pots.map (fun q => q.child)).Nodup
  shape : ∀ q ∈ f.pots, q.table.card = (f.family q).map f.card ∧ q.table.data.length = q.table.card.prod

/-- A file that makes sense: its parts fit together and the numbers are not negative. -/
structure NetFile.Valid (f : NetFile K) : Prop extends NetFile.Fits f where
  nonneg : ∀ q ∈ f.pots, ∀ a ∈ q.table.data, 0 ≤ a

instance {f : NetFile K} : CoeOut f.Valid f.Fits := ⟨NetFile.Valid.toFits⟩

/-- The number given by a table when the variables have the states `x`. -/
def NetFile.entry (f : NetFile K) (q : Parsed K) (x : Nat → Nat) : K := q.table.at' ((f.family q).map x)

/-- The network described: the conditional tables are multiplied; tables without parents are priors (all zero if there is none). -/
def NetFile.net {K : Type} [Field K] [LinearOrder K] (f : NetFile K) : Net K where
  vars := f.vars
  card := f.card
  tables := fun x => ((f.pots.filter (fun q => decide (q.parents ≠ []))).map (fun q => f.entry q x)).prod
  roots := f.vars.filter (fun v => decide (∀ q ∈ f.pots, q.child = v → q.parents = []))
  prior := fun v =>
    match f.pots.find? (fun q => decide (q.child = v)) with
    | some q => q.table.data
    | none => List.replicate (f.card v) 0
  oldOut := fun v => decide (f.next v ≠ none ∧ ∃ q ∈ f.pots, v ∈ q.parents)

end Nip.Spec
