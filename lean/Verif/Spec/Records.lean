import Verif.Spec.Unrolled

/-!
# Specification: the weight of a record

For properties C77 and C78.  A record is a row of values, one for each observed variable; negative numbers stand for missing values.
-/

namespace Nip.Spec

variable {K : Type} [Field K] [LinearOrder K]

/-- the sum of the weights of all assignments to the variables of one time slice that agree with what was seen -/
noncomputable def NetFile.recordWeight (f : NetFile K) (first : Prop) (seen : Nat → Int) : K :=
  sumOver f.card f.vars (f.sliceWeight first seen) (fun _ => 0)

end Nip.Spec
