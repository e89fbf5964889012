import Verif.Spec.Hugin
import Verif.Spec.NetFile
import Verif.Spec.NetTable

/-!
# What a network file says

A description of a network by names, the lexemes it is written with, and the network described.  Nothing here refers to the model of the C code.
-/

namespace Nip.Spec

/-- Numbers (as they are written), grouped by parentheses: nothing, a number and more, or a group in parentheses and more. -/
inductive Grouped where
  | nil
  | num (w : List Char) (more : Grouped)
  | group (inner more : Grouped)
deriving Repr, DecidableEq

def Grouped.lexemes : Grouped → List Lexeme
  | nil => []
  | num w m => .number w :: m.lexemes
  | group i m => .mark '(' :: i.lexemes ++ .mark ')' :: m.lexemes

/-- the numbers, without the parentheses -/
def Grouped.words : Grouped → List (List Char)
  | nil => []
  | num w m => w :: m.words
  | group i m => i.words ++ m.words

/-- the value of a field that means nothing to the program -/
inductive FieldValue where
  | text (w : List Char)
  | numbers (g : Grouped)
deriving Repr, DecidableEq

def FieldValue.lexemes : FieldValue → List Lexeme
  | text w => [.text w]
  | numbers g => g.lexemes

/-- a field of a node -/
inductive NodeField where
  | states (names : List (List Char))
  | label (w : List Char)
  | next (name : List Char)
  | position (x y : List Char)
  | other (name : List Char) (v : FieldValue)
deriving Repr, DecidableEq

def NodeField.lexemes : NodeField → List Lexeme
  | states ns => [.key .states, .mark '=', .mark '('] ++ ns.map .text ++ [.mark ')', .mark ';']
  | label w => [.key .label, .mark '=', .text w, .mark ';']
  | next w => [.key .next, .mark '=', .text w, .mark ';']
  | position x y => [.key .position, .mark '=', .mark '(', .number x, .number y, .mark ')', .mark ';']
  | other n v => [.name n, .mark '='] ++ v.lexemes ++ [.mark ';']

/-- a node: is it written with `discrete`, its name, its fields -/
structure NodeText where
  discrete : Bool
  name : List Char
  fields : List NodeField
deriving Repr, DecidableEq

def NodeText.lexemes (n : NodeText) : List Lexeme :=
  (if n.discrete then [.key .discrete] else []) ++ [.key .node, .name n.name, .mark '{'] ++ n.fields.flatMap NodeField.lexemes ++ [.mark '}']

/-- a potential: child, parents (`none`: no bar), numbers (`none`: no `data`) -/
structure PotText where
  child : List Char
  parents : Option (List (List Char))
  data : Option Grouped
deriving Repr, DecidableEq

/-- the parents after the bar -/
def parentLexemes : Option (List (List Char)) → List Lexeme
  | none => []
  | some l => .mark '|' :: l.map .name

/-- the numbers -/
def dataLexemes : Option Grouped → List Lexeme
  | none => []
  | some g => [.key .data, .mark '=', .mark '('] ++ g.lexemes ++ [.mark ')', .mark ';']

def PotText.lexemes (p : PotText) : List Lexeme :=
  [.key .potential, .mark '(', .name p.child] ++ parentLexemes p.parents ++ [.mark ')', .mark '{'] ++ dataLexemes p.data ++ [.mark '}']

/-- a field of the block `net` or of a class -/
inductive NetField where
  | size (x y : List Char)
  | other (name : List Char) (v : FieldValue)
deriving Repr, DecidableEq

def NetField.lexemes : NetField → List Lexeme
  | size x y => [.key .nodeSize, .mark '=', .mark '(', .number x, .number y, .mark ')', .mark ';']
  | other n v => [.name n, .mark '='] ++ v.lexemes ++ [.mark ';']

/-- what stands around nodes and potentials -/
inductive Frame where
  | bare
  | net (fields : List NetField)
  | klass (name : List Char) (fields : List NetField)
deriving Repr, DecidableEq

def Frame.fields : Frame → List NetField
  | bare => []
  | net l => l
  | klass _ l => l

/-- the size of nodes, if the field has it -/
def NetField.sizeOf : NetField → Option (List Char × List Char)
  | size x y => some (x, y)
  | _ => none

/-- the size of nodes given last -/
def sizeGiven (fs : List NetField) : Option (List Char × List Char) := (fs.filterMap NetField.sizeOf).getLast?

/-- a network file -/
structure NetText where
  frame : Frame
  nodes : List NodeText
  pots : List PotText
deriving Repr, DecidableEq

def NetText.lexemes (d : NetText) : List Lexeme :=
  let inside := d.nodes.flatMap NodeText.lexemes ++ d.pots.flatMap PotText.lexemes
  match d.frame with
  | .bare => inside
  | .net l => [.key .net, .mark '{'] ++ l.flatMap NetField.lexemes ++ [.mark '}'] ++ inside
  | .klass n l => [.key .klass, .name n, .mark '{'] ++ l.flatMap NetField.lexemes ++ inside ++ [.mark '}']

/-- the names of the states, if the field has them -/
def NodeField.statesOf : NodeField → Option (List (List Char))
  | states l => some l
  | _ => none

/-- the label, if the field is one -/
def NodeField.labelOf : NodeField → Option (List Char)
  | label w => some w
  | _ => none

/-- the name of the successor, if the field has it -/
def NodeField.nextOf : NodeField → Option (List Char)
  | next w => some w
  | _ => none

/-- the position, if the field has it -/
def NodeField.positionOf : NodeField → Option (List Char × List Char)
  | position x y => some (x, y)
  | _ => none

/-- the states of a node -/
def NodeText.states (n : NodeText) : List (List Char) := (n.fields.findSome? NodeField.statesOf).getD []

/-- the label of a node -/
def NodeText.label (n : NodeText) : Option (List Char) := n.fields.findSome? NodeField.labelOf

/-- the name of the successor of a node -/
def NodeText.next (n : NodeText) : Option (List Char) := n.fields.findSome? NodeField.nextOf

/-- the position of a node -/
def NodeText.position (n : NodeText) : Option (List Char × List Char) :=
  n.fields.findSome? NodeField.positionOf

/-- Fields of the same kind, except unknown ones. -/
def NodeField.same : NodeField → NodeField → Bool
  | states _, states _ => true
  | label _, label _ => true
  | next _, next _ => true
  | position _ _, position _ _ => true
  | _, _ => false

/-- A node makes sense: no field is given twice, there are states, and the numbers of the position are integers (`int` says which are). -/
structure NodeText.Sensible (int : List Char → Option Nat) (n : NodeText) : Prop where
  once : n.fields.Pairwise (fun a b => a.same b = false)
  states : n.states ≠ []
  position : ∀ p, n.position = some p → (int p.1).isSome ∧ (int p.2).isSome

/-- the place of a name among the nodes -/
def NetText.place (d : NetText) (name : List Char) : Nat := d.nodes.findIdx (fun n => n.name == name)

/-- the number of states of the node with this name -/
def NetText.card (d : NetText) (name : List Char) : Nat := ((d.nodes.find? (fun n => n.name == name)).map (fun n => n.states.length)).getD 0

variable {K : Type} [Field K] [LinearOrder K]

/-- A potential makes sense: the names are of nodes, the parents are different from each other and from the child, there is at least one if there
is a bar, and there are enough numbers, none negative. -/
structure PotText.Sensible (d : NetText) (value : List Char → K) (p : PotText) : Prop where
  names : ∀ w ∈ p.child :: p.parents.getD [], ∃ n ∈ d.nodes, n.name = w
  parents : ∀ l, p.parents = some l → l ≠ []
  distinct : (p.child :: p.parents.getD []).Nodup
  numbers : ∀ g, p.data = some g → ((p.child :: p.parents.getD []).map d.card).prod ≤ g.words.length ∧ ∀ w ∈ g.words, 0 ≤ value w

/-- A network file makes sense: there is a node, names are different, nodes and potentials make sense, at most one potential for each child,
successors are nodes with the same number of states. -/
structure NetText.Sensible (value : List Char → K) (int : List Char → Option Nat) (d : NetText) : Prop where
  nonempty : d.nodes ≠ []
  names : (d.nodes.map (fun n => n.name)).Nodup
  nodes : ∀ n ∈ d.nodes, n.Sensible int
  sizes : ∀ x y, .size x y ∈ d.frame.fields → (int x).isSome ∧ (int y).isSome
  next : ∀ n ∈ d.nodes, ∀ w, n.next = some w → (∃ m ∈ d.nodes, m.name = w) ∧ d.card w = n.states.length
  pots : ∀ p ∈ d.pots, p.Sensible d value
  children : (d.pots.map (fun p => p.child)).Nodup

/-- The numbers `g x` scaled such that their sum over the states of the variable `v` is one, if the sum is not zero. -/
def scaled (card : Nat → Nat) (v : Nat) (g : (Nat → Nat) → K) (x : Nat → Nat) : K :=
  if ∑ i ∈ Finset.range (card v), g (withState x v i) = 0 then g x else g x / ∑ i ∈ Finset.range (card v), g (withState x v i)

/-- The number in the table of a potential of the file for the combination `x` of states.  The numbers are scaled over the states of the variable `v`,
except that a table without parents and numbers is left as ones. -/
def tableValue (card : Nat → Nat) (v c : Nat) (ps : Option (List Nat)) (data : Option (List K)) (x : Nat → Nat) : K :=
  match data with
  | some d => scaled card v (written card c (ps.getD []) d) x
  | none => if ps = none then 1 else scaled card v (fun _ => 1) x

/-- The table of a potential of the file, where `c` and `ps` (`none`: no bar) are identities of variables and `data` are the numbers
(`none`: there are none).  The family in the order of identities is `v :: s`; the numbers are scaled over the states of its first variable. -/
structure Stored (f : NetFile K) (c : Nat) (ps : Option (List Nat)) (data : Option (List K)) (q : Parsed K) : Prop where
  child : q.child = c
  parents : q.parents = (ps.getD []).reverse
  card : q.table.card = (f.family q).map f.card
  table : ∀ x, Combination f.card (c :: ps.getD []) x → ∀ v s, f.family q = v :: s →
    f.entry q x = tableValue f.card v c ps data x

/-- The file with identities of variables from `base` on: the network that is described. -/
structure NetText.Describes (d : NetText) (value : List Char → K) (base : Nat) (f : NetFile K) : Prop where
  vars : f.vars = List.range' base d.nodes.length
  card : ∀ n ∈ d.nodes, f.card (base + d.place n.name) = n.states.length
  next : ∀ n ∈ d.nodes, f.next (base + d.place n.name) = n.next.map (fun w => base + d.place w)
  pots : List.Forall₂ (fun p q => Stored f (base + d.place p.child) (p.parents.map (fun l => l.map (fun w => base + d.place w)))
    (p.data.map (fun g => g.words.map value)) q) d.pots f.pots

end Nip.Spec
