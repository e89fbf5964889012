import Verif.Spec.Rounding

/-!
# Specification vocabulary: how far two numbers are apart

Nothing here refers to the model of the C code.
-/

namespace Nip.Spec

variable {K : Type} [Field K] [LinearOrder K]

/-- Neither number is more than `q` times the other.  (So for numbers that are not negative one is zero only if the other is.) -/
def Within (q a b : K) : Prop := a ≤ b * q ∧ b ≤ a * q

/-- Rounding changes a number that is not negative by at most a factor `1 + e`, up or down.  No number is too small or too large for such a machine. -/
structure Accurate (R : Rounding K) (e : K) : Prop where
  nonneg : 0 ≤ e
  near : ∀ x, 0 ≤ x → Within (1 + e) (R.fl x) x

/-- The machine holds a number that is not negative and, up to a factor `q`, equal to `a`. -/
def Machine.Near {R : Rounding K} (q : K) (x : Machine K R) (a : K) : Prop := ∃ b, x = .num b ∧ 0 ≤ b ∧ Within q b a

end Nip.Spec
