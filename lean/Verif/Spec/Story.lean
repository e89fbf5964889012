import Verif.Spec.DataFile
import Verif.Spec.Question

/-!
# Stories: what a network file with temporal links says about a sequence of time steps

A combination of states for each time step.  Nothing here refers to the model of the C code.
-/

namespace Nip.Spec

variable {K : Type} [Field K] [LinearOrder K]

/-- Links between time steps that make sense: a node with a successor is a parent of something, and different nodes have different successors. -/
structure NetText.Temporal (d : NetText) : Prop where
  used : ∀ n ∈ d.nodes, ∀ w, n.next = some w → ∃ p ∈ d.pots, n.name ∈ p.parents.getD []
  distinct : ∀ n ∈ d.nodes, ∀ m ∈ d.nodes, ∀ w, n.next = some w → m.next = some w → n = m

/-- the successor of the node with this name -/
def NetText.nextOf (d : NetText) (name : List Char) : Option (List Char) := (d.nodes.find? (fun n => n.name == name)).bind (fun n => n.next)

/-- all stories of `n` time steps: lists of combinations -/
def NetText.stories (d : NetText) : Nat → List (List (List Nat))
  | 0 => [[]]
  | n + 1 => d.combinations.flatMap (fun c => (d.stories n).map (fun cs => c :: cs))

/-- A combination goes with the one of the time step before: a node with a successor is now in the state in which the successor was. -/
def NetText.follows (d : NetText) (before c : List Nat) : Bool := d.nodes.all (fun n => n.next.all (fun w => d.stateIn c n.name == d.stateIn before w))

/-- Does a potential count in this time step?  Those without parents, of nodes with a successor, only in the first one. -/
def PotText.counts (d : NetText) (first : Bool) (p : PotText) : Bool := first || p.parents.isSome || (d.nextOf p.child).isNone

/-- the product of the conditional probabilities (or what else the numbers mean) that count in this time step -/
def NetText.stepProb (d : NetText) (prob : Reading K) (first : Bool) (c : List Nat) : K :=
  (d.pots.map (fun p => if p.counts d first then prob p c else 1)).prod

/-- The weight of the rest of a story after the combination `before`; `told` are the findings in these time steps. -/
def NetText.restWeight (d : NetText) (prob : Reading K) : List Nat → List (List Nat) → List (Findings K) → K
  | before, c :: cs, t :: ts =>
    (if d.follows before c then d.stepProb prob false c * d.support t c else 0) * d.restWeight prob c cs ts
  | _, _, _ => 1

/-- the weight of a story -/
def NetText.storyWeight (d : NetText) (prob : Reading K) : List (List Nat) → List (Findings K) → K
  | c :: cs, t :: ts => d.stepProb prob true c * d.support t c * d.restWeight prob c cs ts
  | _, _ => 1

/-- sum over all stories -/
def NetText.storyTotal (d : NetText) (prob : Reading K) (told : List (Findings K)) : K :=
  ((d.stories told.length).map (fun cs => d.storyWeight prob cs told)).sum

/-- sum over the stories in which the node with this name is in state `i` in time step `t` -/
def NetText.storyShare (d : NetText) (prob : Reading K) (told : List (Findings K)) (t : Nat) (name : List Char) (i : Nat) : K :=
  (((d.stories told.length).filter (fun cs => d.stateIn (cs.getD t []) name == i)).map (fun cs => d.storyWeight prob cs told)).sum

/-- conditional probabilities of the states of a node in time step `t` given all findings -/
def NetText.storyPosterior (d : NetText) (prob : Reading K) (told : List (Findings K)) (t : Nat) (name : List Char) : List K :=
  (List.range (d.card name)).map (fun i => d.storyShare prob told t name i / d.storyTotal prob told)

/-- the same, with zeros if the findings are impossible -/
def NetText.posteriorOrZeros (d : NetText) (prob : Reading K) (told : List (Findings K)) (t : Nat) (name : List Char) : List K :=
  if d.storyTotal prob told = 0 then List.replicate (d.card name) 0 else d.storyPosterior prob told t name

/-- There are links between time steps. -/
def NetText.links (d : NetText) : Bool := d.nodes.any (fun n => n.next.isSome)

/-- The answer about a node in time step `t`: with links between time steps from all findings, without from those in time step `t`. -/
def NetText.answer (d : NetText) (prob : Reading K) (told : List (Findings K)) (t : Nat) (name : List Char) : List K :=
  if d.links then d.posteriorOrZeros prob told t name else d.posteriorOrZeros prob [told.getD t []] 0 name

/-- The numbers of a potential without parents are not all zero. -/
def NetText.PriorsUsable (d : NetText) (prob : Reading K) : Prop := ∀ p ∈ d.pots, p.parents.getD [] = [] → ∃ c ∈ d.combinations, prob p c ≠ 0

/-- What a line of a data file tells: a node whose name is in the header is in the state with the name that is in its column, if there is such a state. -/
def NetText.lineTells (d : NetText) (header : List (List Char)) (line : List Char) : Findings K :=
  (header.zip (fields ',' line)).filterMap (fun q => if q.2 ∈ d.statesOf q.1 then some (q.1, Finding.state q.2) else none)

/-- A node has at most one column. -/
def NetText.OneColumn (d : NetText) (header : List (List Char)) : Prop :=
  ∀ n ∈ d.nodes, ∀ c c' : Nat, header[c]? = some n.name → header[c']? = some n.name → c = c'

/-- Every line has a field for each column of a node. -/
def NetText.LongLines (d : NetText) (header : List (List Char)) (lines : List (List Char)) : Prop :=
  ∀ line ∈ lines, ∀ n ∈ d.nodes, ∀ c : Nat, header[c]? = some n.name → c < (fields ',' line).length

end Nip.Spec
