import Verif.Spec.FilterMemory

/-!
# Requests for memory of forward inference with the likelihood, and the values that are kept

`linked` says whether there are links between time steps, `b` is the number of separators with variables.
-/

namespace Nip.Spec

/-- requests before the values of step `t` are entered: for the message that arrives, and of the inference for the reference mass -/
def earlyRequests (linked : Bool) (b t : Nat) : Nat := arrivalRequests linked t + 4 * b

/-- the number of the first request of step `t`, counted from the beginning, if `count t` is the number of values entered in step `t` -/
def roundBegins (linked : Bool) (b : Nat) (count : Nat → Nat) : Nat → Nat
  | 0 => 0
  | t + 1 => roundBegins linked b count t + (earlyRequests linked b t + count t + laterRequests linked b)

/-- All rows without the values whose requests are refused; `k` requests were made before. -/
def keptRows (fails : Nat → Bool) (marked : Nat → Bool) (linked : Bool) (b k : Nat) (observed : List Nat) (rows : List (List Int)) : List (List Int) :=
  rows.mapIdx (fun t row => thinRow fails marked (k + roundBegins linked b (valueCount marked observed rows) t + earlyRequests linked b t) observed row)

/-- In step `t` of a run before which `k` requests were made no request for a message or of inference is refused. -/
def RoundServed (fails : Nat → Bool) (linked : Bool) (b k : Nat) (count : Nat → Nat) (t : Nat) : Prop :=
  let first := k + roundBegins linked b count t
  let entered := first + earlyRequests linked b t + count t
  Granted fails first (first + earlyRequests linked b t) ∧ Granted fails entered (entered + laterRequests linked b)

end Nip.Spec
