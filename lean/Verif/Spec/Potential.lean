import Verif.Potential
import Verif.Spec.Table

/-!
# Specification vocabulary for potentials

Only the *data type* of potentials is used here, none of the modelled operations.
-/

namespace Nip.Potential

open Spec

variable {K : Type} [Zero K]

/-- The shape invariant of potentials: the table has exactly one cell per tuple of states and every variable has at
least one state. -/
def Wf {K : Type} (p : Potential K) : Prop := p.data.length = p.card.prod ∧ Positive p.card

instance {K : Type} (p : Potential K) : Decidable p.Wf := by unfold Wf; infer_instance

/-- Value of a potential at a tuple of states. -/
def at' (p : Potential K) (idx : List Nat) : K := cellOf p.card p.data idx

end Nip.Potential
