import Verif.Spec.FilterMemory

/-!
# Requests for memory of the backward phase of forward-backward inference, and the values that are kept

`linked` says whether there are links between time steps, `b` is the number of separators with variables, `n` is the number of time steps.
-/

namespace Nip.Spec

/-- requests after the values of step `t` are entered in the backward phase: for the message from the step after, of inference, and for the message to the step before -/
def backRequests (linked : Bool) (b n t : Nat) : Nat :=
  (if linked && decide (t + 1 < n) then 1 else 0) + 4 * b + if linked && decide (0 < t) then 1 else 0

/-- the number of requests of the last `d` steps in the backward phase, if `count t` is the number of values entered in step `t` -/
def lastRequests (linked : Bool) (b n : Nat) (count : Nat → Nat) : Nat → Nat
  | 0 => 0
  | d + 1 => lastRequests linked b n count d + (arrivalRequests linked (n - 1 - d) + count (n - 1 - d) + backRequests linked b n (n - 1 - d))

/-- All rows without the values whose requests in the backward phase are refused; `k` requests were made before that phase. -/
def lateRows (fails : Nat → Bool) (marked : Nat → Bool) (linked : Bool) (b n k : Nat) (observed : List Nat) (rows : List (List Int)) : List (List Int) :=
  rows.mapIdx (fun t row => thinRow fails marked (k + lastRequests linked b n (valueCount marked observed rows) (n - 1 - t) + arrivalRequests linked t) observed row)

/-- In step `t` of the backward phase, before which `k` requests were made, no request for a message or of inference is refused. -/
def LateServed (fails : Nat → Bool) (linked : Bool) (b n k : Nat) (count : Nat → Nat) (t : Nat) : Prop :=
  let first := k + lastRequests linked b n count (n - 1 - t)
  let entered := first + arrivalRequests linked t + count t
  Granted fails first (first + arrivalRequests linked t) ∧ Granted fails entered (entered + backRequests linked b n t)

end Nip.Spec
