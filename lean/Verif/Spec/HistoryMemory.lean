import Verif.Spec.Network

/-!
# Histories of calls with requests for memory

The requests of a run are numbered; `fails i` says that request number `i` is refused.  A network has `b` borders: separators with at least one variable.
-/

namespace Nip.Spec

variable {K : Type}

/-- how often a call asks for memory: once for an observation of a state, once for a question about a variable, four times per border for inference -/
def requests (b : Nat) : Op K → Nat
  | .observe _ i => if i < 0 then 0 else 1
  | .query _ => 1
  | .propagate => 4 * b
  | _ => 0

/-- how often a history asks for memory -/
def asked (b : Nat) (ops : List (Op K)) : Nat := (ops.map (requests b)).sum

/-- are the `n` requests from number `t` on all granted? -/
def served (fails : Nat → Bool) (t n : Nat) : Bool := (List.range n).all (fun i => !fails (t + i))

/-- The calls of a history, starting with request number `t`, that get all the memory they ask for. -/
def servedCalls (fails : Nat → Bool) (b : Nat) : Nat → List (Op K) → List (Op K)
  | _, [] => []
  | t, op :: ops => (if served fails t (requests b op) then [op] else []) ++ servedCalls fails b (t + requests b op) ops

/-- Every inference of the history gets all the memory it asks for. -/
def InferenceServed (fails : Nat → Bool) (b t : Nat) (ops : List (Op K)) : Prop :=
  ∀ before after, ops = before ++ Op.propagate :: after → served fails (t + asked b before) (4 * b) = true

/-- the questions about variables in a history -/
def questionsAsked : List (Op K) → Nat
  | [] => 0
  | .query _ :: ops => questionsAsked ops + 1
  | _ :: ops => questionsAsked ops

end Nip.Spec
