import Verif.Spec.Learn
import Verif.Spec.Lines
import Verif.Spec.Story

/-!
# Vocabulary: learning from files

What the lines of a data file tell about numbered variables, calls of the learning function, and the text of a learning curve.  Nothing here refers to the model of the
C code.
-/

namespace Nip.Spec

variable {K : Type} [Field K] [LinearOrder K]

/-- the number of the state of a node that a line tells: that of the word in the column of the node; -1 if there is no column or no such state -/
def NodeText.told (n : NodeText) (columns : List (List Char)) (line : List Char) : Int :=
  match (columns.zip (Spec.fields ',' line)).find? (fun q => q.1 == n.name) with
  | some q => if q.2 ∈ n.states then (n.states.idxOf q.2 : Int) else -1
  | none => -1

/-- The data for learning are what groups of lines tell; nodes are numbered from `base` on. -/
def NetText.Tells (d : NetText) (base : Nat) (columns : List (List Char)) (groups : List (List (List Char))) (data : Evidence) : Prop :=
  List.Forall₂ (fun lines e => e.1 = lines.length ∧
    ∀ (t : Nat) line, lines[t]? = some line → ∀ n ∈ d.nodes, e.2 t (base + d.place n.name) = n.told columns line) groups data

/-- Learning that starts with these counts goes on with the network `h`: the first tables are those of `h`, except that nodes without parents get equal numbers, and
that there are zeros instead of the numbers of `h` for combinations that are impossible. -/
def GoesOn (f h : NetFile K) (start : Nat → List Nat → K) : Prop :=
  (∀ v ∈ f.vars, f.givens v = [] → ∀ x, Legal f.card f.vars x → estimate (f.card v) (start v) (f.cell v x) = 1 / (f.card v : K)) ∧
    ∀ q ∈ h.pots, q.parents ≠ [] → ∀ x, Legal f.card f.vars x →
      estimate (f.card q.child) (start q.child) (f.cell q.child x) = h.entry q x ∨
        (estimate (f.card q.child) (start q.child) (f.cell q.child x) = 0 ∧ h.net.tables x = 0)

/-- How a call of the learning function ends. -/
inductive Ending where
  | badLuck
  | converged
  | exhausted
deriving DecidableEq

/-- A call of the learning function: the counts with which it starts, the number of its last round (from 0 on), and how it ends. -/
structure Call (K : Type) where
  start : Nat → List Nat → K
  last : Nat
  ending : Ending

/-- What training is given: a network, of which only variables and parents count, data, random numbers (for each run, each call in it, each table and each place in it),
a logarithm, the lowest number, the smallest increase, the smallest mean log likelihood demanded, and the largest number of rounds. -/
structure Lesson (K : Type) where
  file : NetFile K
  data : Evidence
  rand : Nat → Nat → Nat → Nat → K
  log : K → K
  lowest : K
  threshold : K
  least : K
  most : Int

/-- the number of time steps in the data -/
def Lesson.steps (a : Lesson K) : Nat := (a.data.map (fun e => e.1)).sum

/-- the network of round `j` of a call -/
noncomputable def Call.netAt (a : Lesson K) (c : Call K) (j : Nat) : NetFile K := a.file.learnedNet a.data c.start j

/-- the network that a call leaves -/
noncomputable def Call.net (a : Lesson K) (c : Call K) : NetFile K := c.netAt a c.last

/-- the log likelihood of the data after round `j` of a call -/
noncomputable def Call.scoreAt (a : Lesson K) (c : Call K) (j : Nat) : K := (c.netAt a j).score a.log a.data

/-- the log likelihood in the round before -/
noncomputable def Call.scoreBefore (a : Lesson K) (c : Call K) : Nat → K
  | 0 => a.lowest
  | j + 1 => c.scoreAt a j

open Classical in
/-- What is decided after round `j` of a call with at most `most` rounds (`none`: go on).  Impossible data are bad luck, and so is a log likelihood that falls by more
than the threshold per time step.  There are at least three rounds.  Then a call stops if the log likelihood rises by no more than that, or if there are enough rounds. -/
noncomputable def Call.decided (a : Lesson K) (most : Int) (c : Call K) (j : Nat) : Option Ending :=
  if ¬ (c.netAt a j).Explains a.data then some .badLuck
  else if c.scoreAt a j + a.steps * a.threshold < c.scoreBefore a j then some .badLuck
  else if j < 2 then none
  else if c.scoreAt a j - c.scoreBefore a j ≤ a.steps * a.threshold then some .converged
  else if most ≤ (j : Int) + 1 then some .exhausted
  else none

/-- A call with at most `most` rounds goes as it should. -/
structure Call.Right (a : Lesson K) (most : Int) (c : Call K) : Prop where
  nonneg : ∀ v cell, 0 ≤ c.start v cell
  before : ∀ j, j < c.last → c.decided a most j = none
  last : c.decided a most c.last = some c.ending

/-- the mean log likelihood after the last round -/
noncomputable def Call.mean (a : Lesson K) (c : Call K) : K := c.scoreAt a c.last / a.steps

open Classical in
/-- what a call adds to the learning curve: for each of its rounds the mean log likelihood, if the data are possible -/
noncomputable def Call.curve (a : Lesson K) (c : Call K) : List K :=
  (List.range (if (c.net a).Explains a.data then c.last + 1 else c.last)).map (fun j => c.scoreAt a j / a.steps)

/-- the ending that counts: that of the last call without bad luck, even if it belongs to an earlier run -/
def Ending.since (old new : Ending) : Ending := if new = .badLuck then old else new

/-- The calls of a run, from call number `batch` on, with `left` rounds left; `random`: start with random numbers; `old`: the ending that counts; `h`: the network of the
model.  A call has at most 32 rounds.  After a call that came to its largest number of rounds, learning goes on with the network; after convergence, or when
no rounds are left, the run is over. -/
def IsRun (a : Lesson K) (run : Nat) : (batch : Nat) → (random : Bool) → (old : Ending) → (left : Int) → (h : NetFile K) → List (Call K) → Prop
  | _, _, _, _, _, [] => False
  | batch, random, old, left, h, c :: cs =>
    c.Right a (min 32 left) ∧
    (random = true → c.start = countsIn a.file (a.file.drawn (a.rand run batch))) ∧
    (random = false → h.Normalised → GoesOn a.file h c.start) ∧
    (if old.since c.ending = .converged ∨ left ≤ 32 then cs = []
      else IsRun a run (batch + 1) (random && decide (old.since c.ending ≠ .exhausted)) (old.since c.ending) (left - 32) (c.net a) cs)

/-- the ending that counts after a run -/
def endingAfter (old : Ending) (cs : List (Call K)) : Ending := cs.foldl (fun old c => old.since c.ending) old

/-- the network of the model after a run -/
noncomputable def netAfter (a : Lesson K) (h : NetFile K) (cs : List (Call K)) : NetFile K := (cs.getLast?.map (fun c => c.net a)).getD h

/-- A run is not good enough: its last call has bad luck, or its mean log likelihood is less than what is demanded. -/
def Fails (a : Lesson K) (cs : List (Call K)) : Prop := ∀ c ∈ cs.getLast?, c.ending = .badLuck ∨ c.mean a < a.least

/-- Runs one after the other; all but the first start with random numbers and the full number of rounds. -/
def AreRuns (a : Lesson K) : (run batch : Nat) → (random : Bool) → (old : Ending) → (left : Int) → (h : NetFile K) → List (List (Call K)) → Prop
  | _, _, _, _, _, _, [] => True
  | run, batch, random, old, left, h, cs :: rest =>
    IsRun a run batch random old left h cs ∧ AreRuns a (run + 1) 0 true (endingAfter old cs) a.most (netAfter a h cs) rest

/-- the largest number of calls in a run with so many rounds left -/
def callsIn (left : Int) : Nat := max 1 ((left + 31) / 32).toNat

/-- a multiple of the unit, as near as possible -/
def Nearest (unit x y : K) : Prop := (∃ z : Int, y = z * unit) ∧ |y - x| ≤ unit / 2

/-- a function that gives a nearest integer, like the C function `rint` -/
def RoundsToInt (rint : K → K) : Prop := ∀ a, (∃ z : Int, rint a = z) ∧ |rint a - a| ≤ 1 / 2

/-- the text of a learning curve: for each number a line with its place (from 1 on) and the number -/
def curveText (shown : K → List Char) (ys : List K) : List Char := (ys.mapIdx (fun i y => line [Nat.toDigits 10 (i + 1), shown y])).flatten

end Nip.Spec
