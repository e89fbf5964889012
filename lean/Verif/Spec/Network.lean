import Mathlib.Algebra.Order.Field.Basic
import Verif.Spec.Sum

/-!
# Specification vocabulary: a network, what has been told to it, and the weight of an assignment

Nothing here refers to the model of the C code.
-/

namespace Nip.Spec

/-- A network: its variables and their numbers of states, the product of its conditional probability tables as a function of complete
assignments, and for the variables without parents (`roots`) their priors.  `oldOut` marks the variables that are replaced by the
previous time slice, when there is one. -/
structure Net (K : Type) where
  vars : List Nat
  card : Nat → Nat
  tables : (Nat → Nat) → K
  roots : List Nat
  prior : Nat → List K
  oldOut : Nat → Bool

/-- What a network has been told since the last reset: the latest evidence about each variable, which priors count as entered, and
which priors are part of the numbers in the tables. -/
structure World (K : Type) where
  evidence : Nat → List K
  entered : Nat → Bool
  present : Nat → Bool

variable {K : Type} [Field K] [LinearOrder K]

/-- The weight of a complete assignment: parameters times priors times evidence. -/
def jointWeight (net : Net K) (w : World K) (x : Nat → Nat) : K :=
  net.tables x * (net.roots.map (fun v => if w.present v then (net.prior v).getD (x v) 0 else 1)).prod *
    (net.vars.map (fun v => (w.evidence v).getD (x v) 0)).prod

/-- Total weight of the assignments in which the variables outside `fixed` may have any states. -/
def marginalWeight (net : Net K) (w : World K) (fixed : List Nat) (x : Nat → Nat) : K :=
  sumOver net.card (net.vars.filter (· ∉ fixed)) (jointWeight net w) x

/-- Total weight of all assignments (variables that are not in the network play no role). -/
def totalWeight (net : Net K) (w : World K) : K := sumOver net.card net.vars (jointWeight net w) (fun _ => 0)

/-- Total weight of the assignments in which variable `v` is in state `i`. -/
def stateWeight (net : Net K) (w : World K) (v i : Nat) : K := marginalWeight net w [v] (Function.update (fun _ => 0) v i)

/-- Nothing told. -/
def World.fresh (net : Net K) : World K :=
  { evidence := fun v => List.replicate (net.card v) 1, entered := fun _ => false, present := fun _ => false }

/-- The new evidence allows a state that the previous evidence about the variable has excluded. -/
def Contradicts (n : Nat) (old new : List K) : Prop := ∃ i, i < n ∧ old.getD i 0 = 0 ∧ new.getD i 0 ≠ 0

/-- A prior with a positive entry. -/
def Usable (n : Nat) (prior : List K) : Prop := ∃ i, i < n ∧ 0 < prior.getD i 0

/-- Things done to a network. -/
inductive Op (K : Type) where
  /-- evidence about a variable: a number for each of its states -/
  | evidence (v : Nat) (e : List K)
  /-- the variable is seen in the state with the given index; a negative index says nothing -/
  | observe (v : Nat) (i : Int)
  /-- forget everything -/
  | reset
  /-- use the priors; the argument says whether there was a previous time slice -/
  | priors (hasHistory : Bool)
  /-- inference -/
  | propagate
  /-- ask for the probability mass -/
  | mass
  /-- ask for the probabilities of a variable -/
  | query (v : Nat)

/-- Number 1 at place `i`, zeros elsewhere. -/
def indicator (n : Nat) (i : Int) : List K := (List.range n).map (fun (j : Nat) => if (j : Int) = i then 1 else 0)

open Classical in
/-- Evidence replaces earlier evidence about the same variable.  Contradicting evidence makes the code forget the priors. -/
noncomputable def World.enter (net : Net K) (w : World K) (v : Nat) (e : List K) : World K :=
  { w with
    evidence := Function.update w.evidence v e
    present := if Contradicts (net.card v) (w.evidence v) e then fun _ => false else w.present }

open Classical in
/-- What has been told after an operation. -/
noncomputable def World.step (net : Net K) (w : World K) : Op K → World K
  | .evidence v e => w.enter net v e
  | .observe v i => if i < 0 then w else w.enter net v (indicator (net.card v) i)
  | .reset => World.fresh net
  | .priors h =>
    { w with
      entered := fun v => w.entered v || decide (v ∈ net.roots ∧ (h = true → net.oldOut v = false))
      present := fun v => w.present v || decide (v ∈ net.roots ∧ w.entered v = false ∧ (h = true → net.oldOut v = false) ∧
        Usable (net.card v) (net.prior v)) }
  | .propagate => w
  | .mass => w
  | .query _ => w

/-- What has been told after a history. -/
noncomputable def World.after (net : Net K) (w : World K) (ops : List (Op K)) : World K := ops.foldl (World.step net) w

/-- Questions, which tell the network nothing. -/
def Op.IsQuestion : Op K → Prop
  | .mass => True
  | .query _ => True
  | _ => False

/-- Arguments that make sense: variables of the network, evidence with a non-negative number for each state. -/
def Op.Valid (net : Net K) : Op K → Prop
  | .evidence v e => v ∈ net.vars ∧ e.length = net.card v ∧ ∀ a ∈ e, 0 ≤ a
  | .observe v _ => v ∈ net.vars
  | .query v => v ∈ net.vars
  | _ => True

end Nip.Spec
