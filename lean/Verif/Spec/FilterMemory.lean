import Verif.Spec.StepMemory
import Verif.Spec.InferMemory

/-!
# Requests for memory of forward inference, and the values that are kept

`linked` says whether there are links between time steps, `b` is the number of separators with variables.
-/

namespace Nip.Spec

/-- requests for the message that arrives in step `t` -/
def arrivalRequests (linked : Bool) (t : Nat) : Nat := if linked && decide (0 < t) then 1 else 0

/-- requests after the values are entered: those of inference, and for the message to the next step -/
def laterRequests (linked : Bool) (b : Nat) : Nat := 4 * b + if linked then 1 else 0

/-- the number of the first request of step `t`, counted from the beginning, if `count t` is the number of values entered in step `t` -/
def stepBegins (linked : Bool) (b : Nat) (count : Nat → Nat) : Nat → Nat
  | 0 => 0
  | t + 1 => stepBegins linked b count t + (arrivalRequests linked t + count t + laterRequests linked b)

/-- the number of marked values that are present in a step -/
def valueCount (marked : Nat → Bool) (observed : List Nat) (rows : List (List Int)) (t : Nat) : Nat := (presentValues marked observed (rows.getD t [])).length

/-- A row without the values whose requests are refused; the first value that is present and marked has request `k`, the next one request `k + 1`, and so on. -/
def thinRow (fails : Nat → Bool) (marked : Nat → Bool) (k : Nat) (observed : List Nat) (row : List Int) : List Int :=
  row.mapIdx (fun i d =>
    if (marked (observed.getD i 0) && decide (0 ≤ d)) && fails (k + (presentValues marked (observed.take i) (row.take i)).length) then -1 else d)

/-- All rows without the values whose requests are refused; `k` requests were made before. -/
def thinRows (fails : Nat → Bool) (marked : Nat → Bool) (linked : Bool) (b k : Nat) (observed : List Nat) (rows : List (List Int)) : List (List Int) :=
  rows.mapIdx (fun t row => thinRow fails marked (k + stepBegins linked b (valueCount marked observed rows) t + arrivalRequests linked t) observed row)

/-- In step `t` of a run before which `k` requests were made no request for a message or of inference is refused. -/
def StepServed (fails : Nat → Bool) (linked : Bool) (b k : Nat) (count : Nat → Nat) (t : Nat) : Prop :=
  let first := k + stepBegins linked b count t
  let entered := first + arrivalRequests linked t + count t
  Granted fails first (first + arrivalRequests linked t) ∧ Granted fails entered (entered + laterRequests linked b)

end Nip.Spec
