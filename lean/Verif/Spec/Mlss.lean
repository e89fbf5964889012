import Verif.Spec.Unrolled

/-!
# Specification vocabulary: most likely sequences of states

Nothing here refers to the model of the C code.
-/

namespace Nip.Spec

variable {K : Type} [Field K] [LinearOrder K]

/-- The states of the variables `asked` are those of the data in the slices `0, …, n - 1`: `(data[t])[i]` is about the variable `asked[i]`. -/
def Follows (asked : List Nat) (n : Nat) (data : List (List Int)) (X : Nat → Nat → Nat) : Prop :=
  ∀ t, t < n → ∀ (i v : Nat), asked[i]? = some v → ((X t v : Nat) : Int) = (data.getD t []).getD i (-1)

/-- The weight of a sequence of states: that of all assignments to the unrolled network that go with it and with what is seen. -/
noncomputable def NetFile.sequenceWeight (f : NetFile K) (seen : Nat → Nat → Int) (n : Nat) (asked : List Nat) (data : List (List Int)) : K :=
  f.unrolledTotal seen n (Follows asked n data)

/-- No sequence of states is more likely given what is seen. -/
def NetFile.MostLikely (f : NetFile K) (seen : Nat → Nat → Int) (n : Nat) (asked : List Nat) (data : List (List Int)) : Prop :=
  ∀ other, f.sequenceWeight seen n asked other ≤ f.sequenceWeight seen n asked data

end Nip.Spec
