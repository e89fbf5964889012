import Mathlib.Combinatorics.SimpleGraph.Acyclic
import Verif.JoinTree

/-!
# What a junction tree is

The cliques of a tree are nodes `0 .. n-1` of a graph, joined by separators.
-/

namespace Nip.Spec

/-- The graph on `n` nodes whose edges are the given pairs, in either direction. -/
def pairGraph (n : Nat) (pairs : List (Nat × Nat)) : SimpleGraph (Fin n) where
  Adj i j := i ≠ j ∧ ((i.1, j.1) ∈ pairs ∨ (j.1, i.1) ∈ pairs)
  symm := ⟨fun _ _ h => ⟨h.1.symm, h.2.symm⟩⟩
  loopless := ⟨fun _ h => h.1 rfl⟩

/-- The graph of cliques and separators. -/
def cliqueGraph {K : Type} (t : JTree K) : SimpleGraph (Fin t.cliques.length) :=
  pairGraph t.cliques.length (t.sepsets.map (fun s => (s.first, s.second)))

/-- Running intersection: a variable of two cliques is in every clique and in every separator on each path between them. -/
def RunningIntersection {K : Type} (t : JTree K) : Prop :=
  ∀ (i j : Fin t.cliques.length) (p : (cliqueGraph t).Walk i j), p.IsPath → ∀ v, v ∈ t.cliques[i].vars → v ∈ t.cliques[j].vars →
    (∀ k ∈ p.support, v ∈ t.cliques[k].vars) ∧
    ∀ s ∈ t.sepsets, ∀ a b : Fin t.cliques.length, s.first = a.1 → s.second = b.1 → s(a, b) ∈ p.edges → v ∈ s.vars

end Nip.Spec
