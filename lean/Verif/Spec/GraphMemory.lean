import Mathlib.Data.List.ProdSigma

/-!
# What a history of calls on graphs means

A ledger says for each graph that was asked for how many nodes it has room for, its nodes in order, and its edges.
-/

namespace Nip.Spec

/-- calls; graphs are numbered in the order in which they were asked for -/
inductive GraphCall where
  | new (n : Nat)
  | copy (g : Nat)
  | node (g v : Nat)
  | edge (g u v : Nat)
  | find (g v : Nat)
  | moralise (g : Nat)
  | join (g : Nat)
  | undirect (g : Nat)
  | free (g : Nat)
deriving Repr, DecidableEq

/-- what became of a graph -/
inductive GraphRecord where
  | graph (size : Nat) (nodes : List Nat) (edges : List (Nat × Nat))
  | freed
deriving Repr, DecidableEq

abbrev GraphLedger := List GraphRecord

/-- edges between different nodes with a common child are added, in both directions -/
def moralEdges (nodes : List Nat) (edges : List (Nat × Nat)) : List (Nat × Nat) :=
  edges ++ (nodes ×ˢ nodes).filter (fun e => e.1 ≠ e.2 ∧ ∃ c ∈ nodes, (e.1, c) ∈ edges ∧ (e.2, c) ∈ edges)

/-- edges between different nodes of the old interface, and between different nodes of the interface, are added -/
def joinedEdges (old out : Nat → Bool) (nodes : List Nat) (edges : List (Nat × Nat)) : List (Nat × Nat) :=
  edges ++ (nodes ×ˢ nodes).filter (fun e => e.1 ≠ e.2 ∧ ((old e.1 = true ∧ old e.2 = true) ∨ (out e.1 = true ∧ out e.2 = true)))

/-- each edge goes in both directions -/
def bothEdges (edges : List (Nat × Nat)) : List (Nat × Nat) := edges ++ edges.map Prod.swap

/-- Calls that make sense: the graph has not been freed; a new node is a variable (not zero) that is not in the graph, and there is room; edges and searches are about nodes of the graph;
interface edges are added to a graph that is full. -/
def GraphCall.Valid (l : GraphLedger) : GraphCall → Prop
  | .new _ => True
  | .copy g => ∃ n nodes edges, l[g]? = some (.graph n nodes edges)
  | .node g v => ∃ n nodes edges, l[g]? = some (.graph n nodes edges) ∧ 0 < v ∧ v ∉ nodes ∧ nodes.length < n
  | .edge g u v => ∃ n nodes edges, l[g]? = some (.graph n nodes edges) ∧ u ∈ nodes ∧ v ∈ nodes
  | .find g v => ∃ n nodes edges, l[g]? = some (.graph n nodes edges) ∧ v ∈ nodes
  | .moralise g => ∃ n nodes edges, l[g]? = some (.graph n nodes edges)
  | .join g => ∃ n nodes edges, l[g]? = some (.graph n nodes edges) ∧ nodes.length = n
  | .undirect g => ∃ n nodes edges, l[g]? = some (.graph n nodes edges)
  | .free g => ∃ n nodes edges, l[g]? = some (.graph n nodes edges)

/-- a changed copy of a graph is added to the ledger -/
def GraphLedger.derive (l : GraphLedger) (g : Nat) (f : List Nat → List (Nat × Nat) → List (Nat × Nat)) : GraphLedger :=
  match l[g]? with
  | some (.graph n nodes edges) => l ++ [.graph n nodes (f nodes edges)]
  | _ => l

/-- a record of the ledger is changed -/
def GraphRecord.change (f : List Nat × List (Nat × Nat) → List Nat × List (Nat × Nat)) : GraphRecord → GraphRecord
  | .graph n nodes edges => .graph n (f (nodes, edges)).1 (f (nodes, edges)).2
  | .freed => .freed

/-- the ledger after a call -/
def GraphCall.on (old out : Nat → Bool) (l : GraphLedger) : GraphCall → GraphLedger
  | .new n => l ++ [.graph n [] []]
  | .copy g => l.derive g (fun _ edges => edges)
  | .node g v => l.modify g (GraphRecord.change (fun x => (x.1 ++ [v], x.2)))
  | .edge g u v => l.modify g (GraphRecord.change (fun x => (x.1, x.2 ++ [(u, v)])))
  | .find _ _ => l
  | .moralise g => l.derive g moralEdges
  | .join g => l.derive g (joinedEdges old out)
  | .undirect g => l.derive g (fun _ => bothEdges)
  | .free g => l.modify g (fun _ => .freed)

/-- every call of the history makes sense -/
def GraphLedger.Sensible (old out : Nat → Bool) (l : GraphLedger) : List GraphCall → Prop
  | [] => True
  | a :: h => a.Valid l ∧ GraphLedger.Sensible old out (a.on old out l) h

/-- the ledger after a history -/
def GraphLedger.after (old out : Nat → Bool) (l : GraphLedger) (h : List GraphCall) : GraphLedger := h.foldl (GraphCall.on old out) l

end Nip.Spec
