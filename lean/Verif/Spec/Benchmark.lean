import Verif.Spec.Trained

/-!
# Vocabulary: leave-one-out tests

Learning from all series but one, and inference for that one with the network learned.  Nothing here refers to the model of the C code.
-/

namespace Nip.Spec

variable {K : Type} [Field K] [LinearOrder K]

/-- What a test is given: as for training (`Lesson`), with random numbers for each series left out, each call of the learning function for it, each table and each place. -/
structure Trial (K : Type) where
  file : NetFile K
  data : Evidence
  rand : Nat → Nat → Nat → Nat → K
  log : K → K
  lowest : K
  threshold : K
  least : K

/-- Training with all series but number `i`; each call has at most 1024 rounds. -/
def Trial.lesson (b : Trial K) (i : Nat) : Lesson K where
  file := b.file
  data := b.data.eraseIdx i
  rand := fun call _ => b.rand i call
  log := b.log
  lowest := b.lowest
  threshold := b.threshold
  least := b.least
  most := 1024

/-- A call goes as it should and starts with the random numbers for call number `k`. -/
structure Call.Attempt (a : Lesson K) (k : Nat) (c : Call K) : Prop where
  right : c.Right a a.most
  start : c.start = countsIn a.file (a.file.drawn (a.rand k 0))

/-- A call is good enough. -/
def Call.Enough (a : Lesson K) (c : Call K) : Prop := c.ending ≠ .badLuck ∧ a.least ≤ c.mean a

/-- Calls one after the other, of which none is good enough. -/
def AllBad (a : Lesson K) (cs : List (Call K)) : Prop := ∀ (k : Nat) c, cs[k]? = some c → c.Attempt a k ∧ ¬ c.Enough a

/-- Calls one after the other, of which the last one is good enough, and none before. -/
def LastGood (a : Lesson K) (cs : List (Call K)) (c : Call K) : Prop := AllBad a cs ∧ c.Attempt a cs.length ∧ c.Enough a

/-- what is seen, if node `v` is not looked at -/
def seenBut (v : Nat) (seen : Nat → Nat → Int) (t u : Nat) : Int := if u = v then -1 else seen t u

/-- States can be given to all nodes at all times in agreement with what is seen and with the links between time steps. -/
def NetFile.Agreeable (f : NetFile K) (seen : Nat → Nat → Int) (n : Nat) : Prop :=
  ∃ X : Nat → Nat → Nat, (∀ t, t < n → ∀ v ∈ f.vars, X t v < f.card v) ∧ (∀ t, t + 1 < n → f.Linked (X t) (X (t + 1))) ∧
    ∀ t, t < n → ∀ v ∈ f.vars, 0 ≤ seen t v → (X t v : Int) = seen t v

open Classical in
/-- the log likelihood of what is seen -/
noncomputable def NetFile.logSeen (f : NetFile K) (log : K → K) (lowest : K) (seen : Nat → Nat → Int) (n : Nat) : K :=
  if f.Agreeable seen n then ∑ t ∈ Finset.range n, log (f.evidenceProb seen t) else lowest

/-- The lines for one series: one for each time, with a number for each state of `v`; if the series agrees with itself, the conditional probabilities of the states. -/
def TestedRows (fmt : K → List Char) (h : NetFile K) (v : Nat) (e : Nat × (Nat → Nat → Int)) (rows : List (List (List Char))) : Prop :=
  rows.length = e.1 ∧ (∀ row ∈ rows, row.length = h.card v) ∧
    (h.Agreeable (seenBut v e.2) e.1 → rows = (List.range e.1).map (fun t => (h.unrolledPosterior (seenBut v e.2) e.1 t v).map fmt))

/-- the mean over the series of the log likelihood per time step; `nets i` is the network for series number `i` -/
noncomputable def meanLog (log : K → K) (lowest : K) (nets : Nat → NetFile K) (v : Nat) (data : Evidence) : K :=
  (data.mapIdx (fun i e => (nets i).logSeen log lowest (seenBut v e.2) e.1 / (e.1 : K))).sum / (data.length : K)

/-- what is printed on the way: a line for each series -/
def progressText (n : Nat) : List Char :=
  ((List.range n).map (fun i => "  ".toList ++ Nat.toDigits 10 (i + 1) ++ " / ".toList ++ Nat.toDigits 10 n ++ ['\n'])).flatten

end Nip.Spec
