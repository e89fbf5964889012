import Verif.Spec.Unrolled

/-!
# Specification vocabulary: learning parameters from counts

A count is a number for a variable and a combination of states: the state of the variable itself first, then the states of its parents in the
order in which the file lists them.  Nothing here refers to the model of the C code, except the data type of potentials.
-/

namespace Nip.Spec

variable {K : Type} [Field K] [LinearOrder K]

/-- The parents of a variable. -/
def NetFile.givens (f : NetFile K) (v : Nat) : List Nat :=
  match f.pots.find? (fun q => decide (q.child = v)) with
  | some q => q.parents
  | none => []

/-- The states of a variable and its parents. -/
def NetFile.cell (f : NetFile K) (v : Nat) (x : Nat → Nat) : List Nat := x v :: (f.givens v).map x

/-- The share of a count among the counts that differ in the state of the variable only (`0` if all of them are zero). -/
def estimate (n : Nat) (count : List Nat → K) (cell : List Nat) : K := count cell / ∑ j ∈ Finset.range n, count (j :: cell.tail)

/-- The table of a variable made of its counts, with its dimensions in increasing order of identity. -/
def NetFile.learnedTable (f : NetFile K) (count : Nat → List Nat → K) (v : Nat) : Parsed K :=
  let fam := f.vars.filter (fun u => decide (u = v ∨ u ∈ f.givens v))
  { child := v
    parents := f.givens v
    table :=
      { card := fam.map f.card
        data := (tuples (fam.map f.card)).map (fun idx => estimate (f.card v) (count v) (f.cell v (fun u => idx.getD (fam.idxOf u) 0))) } }

/-- The network with the same variables and the same parents, the tables being made of counts. -/
def NetFile.relearn (f : NetFile K) (count : Nat → List Nat → K) : NetFile K := { f with pots := f.vars.map (f.learnedTable count) }

/-- An array of tables for the counts, one for each variable of the file in the order of the file. -/
structure CountTables (f : NetFile K) (params : List (Potential K)) : Prop where
  length : params.length = f.vars.length
  shape : ∀ (i v : Nat) (p : Potential K), f.vars[i]? = some v → params[i]? = some p → TableFor f.card (v :: f.givens v) p
  nonneg : ∀ p ∈ params, ∀ a ∈ p.data, 0 ≤ a

/-- The counts in such an array. -/
def countsIn (f : NetFile K) (params : List (Potential K)) (v : Nat) (cell : List Nat) : K :=
  match params[f.vars.idxOf v]? with
  | some p => p.at' cell
  | none => 0

/-- The expected number of slices of the unrolled network in which a variable and its parents are in the given states, given what is seen.
Variables that are determined by the slice before count in the first slice only. -/
noncomputable def NetFile.expectedCount (f : NetFile K) (seen : Nat → Nat → Int) (n v : Nat) (cell : List Nat) : K :=
  ∑ t ∈ (Finset.range n).filter (fun t => t = 0 ∨ f.next v = none),
    f.unrolledTotal seen n (fun X => f.cell v (X t) = cell) / f.unrolledTotal seen n (fun _ => True)

/-- Data for learning: for each series its length and what is seen in it. -/
abbrev Evidence := List (Nat × (Nat → Nat → Int))

/-- Counts after one round of learning: one pseudo count, and the counts expected in the network whose tables are made of the counts before. -/
noncomputable def NetFile.learnRound (f : NetFile K) (data : Evidence) (count : Nat → List Nat → K) (v : Nat) (cell : List Nat) : K :=
  1 + (data.map (fun d => (f.relearn count).expectedCount d.2 d.1 v cell)).sum

/-- Counts after some rounds. -/
noncomputable def NetFile.learnRounds (f : NetFile K) (data : Evidence) (start : Nat → List Nat → K) : Nat → Nat → List Nat → K
  | 0 => start
  | k + 1 => f.learnRound data (f.learnRounds data start k)

/-- The network after `k + 1` maximisations. -/
noncomputable def NetFile.learnedNet (f : NetFile K) (data : Evidence) (start : Nat → List Nat → K) (k : Nat) : NetFile K :=
  f.relearn (f.learnRounds data start k)

/-- All the data are possible in the network. -/
def NetFile.Explains (f : NetFile K) (data : Evidence) : Prop := ∀ d ∈ data, f.unrolledTotal d.2 d.1 (fun _ => True) ≠ 0

/-- The log likelihood of the data. -/
noncomputable def NetFile.score (f : NetFile K) (log : K → K) (data : Evidence) : K :=
  (data.map (fun d => ∑ t ∈ Finset.range d.1, log (f.evidenceProb d.2 t))).sum

/-- The sum of the logarithms of all the numbers in the tables. -/
def NetFile.logParameters (f : NetFile K) (log : K → K) : K := (f.pots.map (fun q => (q.table.data.map log).sum)).sum

/-- Tables filled with given numbers: the `j`-th number of the table of the `i`-th variable is `num i j`. -/
def NetFile.drawn (f : NetFile K) (num : Nat → Nat → K) : List (Potential K) :=
  f.vars.mapIdx (fun i v => { card := (v :: f.givens v).map f.card, data := (List.range ((v :: f.givens v).map f.card).prod).map (num i) })

/-- The tables of a file are probabilities: whatever the states of the parents, the numbers for the states of the child add up to one. -/
def NetFile.Normalised (f : NetFile K) : Prop :=
  ∀ q ∈ f.pots, ∀ x, Legal f.card f.vars x → ∑ j ∈ Finset.range (f.card q.child), f.entry q (Function.update x q.child j) = 1

/-- The graph of a file has no directed cycle: the variables can be ranked such that parents come before children. -/
def NetFile.Acyclic {K : Type} (f : NetFile K) : Prop := ∃ rank : Nat → Nat, ∀ q ∈ f.pots, ∀ u ∈ q.parents, rank u < rank q.child

/-- The same network, with all priors uniform. -/
def Net.levelled (net : Net K) : Net K := { net with prior := fun v => List.replicate (net.card v) (1 / (net.card v : K)) }

end Nip.Spec
