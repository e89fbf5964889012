/-!
# The values of a time step, and those kept when requests for memory are refused
-/

namespace Nip.Spec

/-- the variables with the mark asked for and their values that are not missing (negative), in the order of the row -/
def presentValues (marked : Nat → Bool) (observed : List Nat) (row : List Int) : List (Nat × Int) :=
  (observed.zip row).filter (fun p => marked p.1 && decide (0 ≤ p.2))

/-- the values whose requests are granted, if value number `i` has request number `t + i` -/
def keptValues (fails : Nat → Bool) (t : Nat) (values : List (Nat × Int)) : List (Nat × Int) :=
  (values.zipIdx.filter (fun p => !fails (t + p.2))).map (fun p => p.1)

end Nip.Spec
