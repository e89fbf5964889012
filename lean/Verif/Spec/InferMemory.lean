/-!
# Requests for memory, granted or refused

The requests of a run are numbered; a refused one gives NULL.
-/

namespace Nip.Spec

/-- every request from number `a` up to, but not including, number `b` is granted -/
def Granted (fails : Nat → Bool) (a b : Nat) : Prop := ∀ i, a ≤ i → i < b → fails i = false

/-- some request from number `a` up to, but not including, number `b` is refused -/
def Refused (fails : Nat → Bool) (a b : Nat) : Prop := ∃ i, a ≤ i ∧ i < b ∧ fails i = true

end Nip.Spec
