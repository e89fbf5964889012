import Mathlib.Algebra.BigOperators.Group.Finset.Basic
import Verif.JoinTree
import Verif.Spec.Potential
import Verif.Spec.NetFile

/-!
# Specification vocabulary: the weights held by a clique tree, and summaries of histories

Of the model only the data types of trees and potentials are used.
-/

namespace Nip.Spec

variable {K : Type} [Field K] [LinearOrder K]

/-- The number in the table of a clique when the variables have the states `x`. -/
def cliqueCell (t : JTree K) (c : Nat) (x : Nat → Nat) : K :=
  match t.cliques[c]? with
  | some cl => cl.p.at' (cl.vars.map x)
  | none => 1

/-- The number in the table of a separator when the variables have the states `x`. -/
def sepCell (t : JTree K) (s : Nat) (x : Nat → Nat) : K :=
  match t.sepsets[s]? with
  | some sp => sp.new.at' (sp.vars.map x)
  | none => 1

/-- Product of the clique tables. -/
def cliqueProduct (t : JTree K) (x : Nat → Nat) : K := ∏ c ∈ Finset.range t.cliques.length, cliqueCell t c x

/-- Product of the separator tables. -/
def sepProduct (t : JTree K) (x : Nat → Nat) : K := ∏ s ∈ Finset.range t.sepsets.length, sepCell t s x

/-- The weight of an assignment according to the tree: clique tables divided by separator tables (`0` where a separator is zero). -/
def treeWeight (t : JTree K) (x : Nat → Nat) : K := cliqueProduct t x / sepProduct t x

/-- All variables of all cliques are in one of their states. -/
def LegalFor (card : Nat → Nat) (t : JTree K) (x : Nat → Nat) : Prop := ∀ cl ∈ t.cliques, Legal card cl.vars x

/-- A table with a number for every combination of states of the variables `vs`. -/
def TableFor (card : Nat → Nat) (vs : List Nat) (p : Potential K) : Prop :=
  p.card = vs.map card ∧ p.data.length = p.card.prod ∧ ∀ v ∈ vs, 0 < card v

/-- The tables of a tree fit their variables, and separators are between cliques that contain their variables. -/
structure Shaped (card : Nat → Nat) (t : JTree K) : Prop where
  clique : ∀ cl ∈ t.cliques, cl.vars.Nodup ∧ TableFor card cl.vars cl.p ∧ TableFor card cl.vars cl.orig
  sep : ∀ sp ∈ t.sepsets, sp.vars.Nodup ∧ TableFor card sp.vars sp.old ∧ TableFor card sp.vars sp.new ∧
    ∃ a b, t.cliques[sp.first]? = some a ∧ t.cliques[sp.second]? = some b ∧ sp.vars ⊆ a.vars ∧ sp.vars ⊆ b.vars

/-- No negative numbers; where a separator is zero some clique is zero too. -/
structure Proper (card : Nat → Nat) (t : JTree K) : Prop where
  clique : ∀ c x, LegalFor card t x → 0 ≤ cliqueCell t c x
  sep : ∀ s x, LegalFor card t x → 0 ≤ sepCell t s x
  support : ∀ x, LegalFor card t x → sepProduct t x = 0 → cliqueProduct t x = 0

/-- The vector of numbers about variable `v` given by an operation. -/
def Op.vector (net : Net K) (v : Nat) : Op K → Option (List K)
  | .evidence u e => if u = v then some e else none
  | .observe u i => if u = v ∧ 0 ≤ i then some (indicator (net.card v) i) else none
  | _ => none

/-- The latest vector about variable `v` in a history (ones if there is none). -/
def latest (net : Net K) (ops : List (Op K)) (v : Nat) : List K :=
  (ops.reverse.findSome? (Op.vector net v)).getD (List.replicate (net.card v) 1)

/-- The history asks for the prior of variable `v`: the variable has no parents, and there is no previous time slice that replaces it. -/
def Asked (net : Net K) (ops : List (Op K)) (v : Nat) : Prop :=
  v ∈ net.roots ∧ ∃ h, Op.priors h ∈ ops ∧ (h = true → net.oldOut v = false)

/-- No evidence of the history allows a state that the evidence before it has excluded. -/
def Peaceful (net : Net K) (ops : List (Op K)) : Prop :=
  ∀ a op b, ops = a ++ op :: b → ∀ v e, op.vector net v = some e → ¬ Contradicts (net.card v) (latest net a v) e

/-- `ops` is the part of a history after the last reset. -/
def SinceReset (hist ops : List (Op K)) : Prop := (∀ op ∈ ops, op ≠ .reset) ∧ (hist = ops ∨ ∃ before, hist = before ++ .reset :: ops)

/-- Parameters times the priors of some of the variables times a vector for each variable, as a function of assignments. -/
def weightOf (net : Net K) (used : Nat → Prop) [DecidablePred used] (vectors : Nat → List K) (x : Nat → Nat) : K :=
  net.tables x * (net.roots.map (fun v => if used v then (net.prior v).getD (x v) 0 else 1)).prod *
    (net.vars.map (fun v => (vectors v).getD (x v) 0)).prod

end Nip.Spec
