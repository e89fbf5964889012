import Verif.ElimLemmas
import Verif.Props.Graph

/-!
# Properties C26 and C27: triangulation

Graphs are given by the history of additions that made them (`GraphOp`, `Verif/Props/Graph.lean`).  The costs `pk`, `sk` that choose
the elimination order are arbitrary; the library uses `clusterPrimaryCost` and `clusterSecondaryCost`.
-/

namespace Nip.Props

open Res Graph

/-- **C26**: for every undirected graph filled to its capacity (edges in both directions, none from a node to itself), and whatever
costs decide the elimination order, triangulation succeeds with an array of cliques such that every set of pairwise linked nodes is
contained in a clique (in particular each node and each linked pair), no clique contains another one, and there is at least one and
at most as many as nodes.  The variables of each clique are nodes, in increasing order. -/
theorem C26_triangulate (ptr : Nat) (pk sk : List Nat → Int) (n : Nat) (ops : List GraphOp) (hv : ValidHistory n ops)
    (codes nodes : List Nat) (edges : List (Nat × Nat)) (hspec : ops.foldl (GraphOp.onSets n) ([], [], []) = (codes, nodes, edges))
    (hfull : nodes.length = n) (hpos : 0 < n) (hsymm : ∀ u v, (u, v) ∈ edges → (v, u) ∈ edges) (hirr : ∀ u, (u, u) ∉ edges) :
    ∃ g cliques, ops.foldlM GraphOp.run ([], Graph.new n) = ok (codes, g) ∧ triangulate ptr pk sk g = ok cliques ∧
      (∀ Q : List Nat, Q ≠ [] → (∀ a ∈ Q, a ∈ nodes) → (∀ a ∈ Q, ∀ b ∈ Q, a ≠ b → (a, b) ∈ edges) → ∃ c ∈ cliques, ∀ a ∈ Q, a ∈ c) ∧
      (∀ v ∈ nodes, ∃ c ∈ cliques, v ∈ c) ∧
      (∀ u v, (u, v) ∈ edges → u ∈ nodes → v ∈ nodes → ∃ c ∈ cliques, u ∈ c ∧ v ∈ c) ∧
      cliques.Pairwise (fun c d => ¬ (∀ a ∈ c, a ∈ d) ∧ ¬ (∀ a ∈ d, a ∈ c)) ∧
      1 ≤ cliques.length ∧ cliques.length ≤ nodes.length ∧
      ∀ c ∈ cliques, (∀ a ∈ c, a ∈ nodes) ∧ c.Pairwise (· < ·) := by
  obtain ⟨g, h1, h2, _⟩ := history_holds n ops hv
  rw [hspec] at h1 h2
  simp only at h1 h2
  have hne : nodes ≠ [] := List.length_pos_iff.mp (by omega)
  obtain ⟨seq, s1, s2⟩ := triangulate_eq ptr pk sk h2 hfull hne (fun a b _ _ => hsymm a b) hirr
  have hcom : ∀ Q : List Nat, Q ≠ [] → (∀ a ∈ Q, a ∈ nodes) → (∀ a ∈ Q, ∀ b ∈ Q, a ≠ b → (a, b) ∈ edges) →
      ∃ c ∈ (keep [] seq).reverse.map (fun c => c.sort (· ≤ ·)), ∀ a ∈ Q, a ∈ c := by
    intro Q hQ hs hl
    obtain ⟨v, c, hc, hsub⟩ := s1.complete Q.toFinset (by simpa using hQ) (fun a ha => by
      have := hs a (by simpa using ha); simpa using this) (by simpa using hl)
    obtain ⟨x, hx, hcx⟩ := keep_covers seq [] v c hc
    refine ⟨x.sort (· ≤ ·), List.mem_map.mpr ⟨x, by simpa using hx, rfl⟩, ?_⟩
    intro a ha
    rw [Finset.mem_sort]
    exact hcx (hsub (by simpa using ha))
  have hnode : ∀ v ∈ nodes, ∃ c ∈ (keep [] seq).reverse.map (fun c => c.sort (· ≤ ·)), v ∈ c := by
    intro v hvn
    obtain ⟨c, hc, hs⟩ := hcom [v] (by simp) (by simpa using hvn) (by
      intro a ha b hb hab
      exact absurd ((List.mem_singleton.mp ha).trans (List.mem_singleton.mp hb).symm) hab)
    exact ⟨c, hc, hs v (by simp)⟩
  refine ⟨g, _, h1, s2, hcom, hnode, ?_, ?_, ?_, ?_, ?_⟩
  · intro u v he hu hvn
    obtain ⟨c, hc, hs⟩ := hcom [u, v] (by simp) (by
      intro a ha
      rcases List.mem_cons.mp ha with rfl | ha
      · exact hu
      · rw [List.mem_singleton.mp ha]; exact hvn) (by
      intro a ha b hb hab
      simp only [List.mem_cons, List.not_mem_nil, or_false] at ha hb
      rcases ha with rfl | rfl <;> rcases hb with rfl | rfl
      · exact absurd rfl hab
      · exact he
      · exact hsymm _ _ he
      · exact absurd rfl hab)
    exact ⟨c, hc, hs u (by simp), hs v (by simp)⟩
  · have := s1.antichain [] List.Pairwise.nil (by simp)
    rw [List.pairwise_map, List.pairwise_reverse]
    refine this.imp ?_
    intro x y hxy
    constructor
    · intro h3
      exact hxy.2 (fun a ha => by have := h3 a (by simpa using ha); simpa using this)
    · intro h3
      exact hxy.1 (fun a ha => by have := h3 a (by simpa using ha); simpa using this)
  · obtain ⟨v, hvn⟩ := List.exists_mem_of_ne_nil _ hne
    obtain ⟨c, hc, _⟩ := hnode v hvn
    exact List.length_pos_of_mem hc
  · have := keep_length seq []
    have h4 := s1.length
    rw [List.toFinset_card_of_nodup h2.nodup] at h4
    simp only [List.length_map, List.length_reverse, List.length_nil] at this ⊢
    omega
  · intro c hc
    obtain ⟨x, hx, rfl⟩ := List.mem_map.mp hc
    refine ⟨?_, (Finset.sortedLT_sort _).pairwise⟩
    intro a ha
    rw [Finset.mem_sort] at ha
    rcases keep_sub seq [] x (by simpa using hx) with h5 | ⟨v, h5⟩
    · cases h5
    · have := (s1.subset v x h5).1 ha
      simpa using this

/-- A square of four variables without diagonals: the edges in both directions. -/
def squareOps : List GraphOp :=
  [.node 4, .node 7, .node 2, .node 9, .edge 4 7, .edge 7 4, .edge 7 2, .edge 2 7, .edge 2 9, .edge 9 2, .edge 9 4, .edge 4 9]

/-- triangulating the square adds a diagonal and gives two cliques -/
example : (squareOps.foldlM GraphOp.run ([], Graph.new 4)).bind
    (fun r => triangulate 8 (clusterPrimaryCost (fun _ _ => false)) (clusterSecondaryCost (fun _ => 2)) r.2) =
    ok [[4, 7, 9], [2, 7, 9]] := by decide +kernel

/-- the hypotheses of the theorem are met by the square -/
example : (squareOps.foldl (GraphOp.onSets 4) ([], [], [])).2.1.length = 4 ∧
    (∀ p ∈ (squareOps.foldl (GraphOp.onSets 4) ([], [], [])).2.2, (p.2, p.1) ∈ (squareOps.foldl (GraphOp.onSets 4) ([], [], [])).2.2) ∧
    (∀ p ∈ (squareOps.foldl (GraphOp.onSets 4) ([], [], [])).2.2, p.1 ≠ p.2) := by decide

example : ValidHistory 4 squareOps := by
  apply validHistory_append 4 [.node 4, .node 7, .node 2, .node 9, .edge 4 7, .edge 7 4, .edge 7 2, .edge 2 7, .edge 2 9, .edge 9 2, .edge 9 4] _ _ (by decide)
  apply validHistory_append 4 [.node 4, .node 7, .node 2, .node 9, .edge 4 7, .edge 7 4, .edge 7 2, .edge 2 7, .edge 2 9, .edge 9 2] _ _ (by decide)
  apply validHistory_append 4 [.node 4, .node 7, .node 2, .node 9, .edge 4 7, .edge 7 4, .edge 7 2, .edge 2 7, .edge 2 9] _ _ (by decide)
  apply validHistory_append 4 [.node 4, .node 7, .node 2, .node 9, .edge 4 7, .edge 7 4, .edge 7 2, .edge 2 7] _ _ (by decide)
  apply validHistory_append 4 [.node 4, .node 7, .node 2, .node 9, .edge 4 7, .edge 7 4, .edge 7 2] _ _ (by decide)
  apply validHistory_append 4 [.node 4, .node 7, .node 2, .node 9, .edge 4 7, .edge 7 4] _ _ (by decide)
  apply validHistory_append 4 [.node 4, .node 7, .node 2, .node 9, .edge 4 7] _ _ (by decide)
  apply validHistory_append 4 [.node 4, .node 7, .node 2, .node 9] _ _ (by decide)
  apply validHistory_append 4 [.node 4, .node 7, .node 2] _ _ (by decide)
  apply validHistory_append 4 [.node 4, .node 7] _ _ (by decide)
  apply validHistory_append 4 [.node 4] _ _ (by decide)
  apply validHistory_append 4 [] _ _ (by decide)
  exact validHistory_nil 4

/-- **C27**: for every network (variables, and edges from parents to children) and all interface markings, converting it to cliques
succeeds, and for each variable some clique contains it and all its parents; some clique contains all outgoing interface variables,
and some clique all previous-outgoing ones. -/
theorem C27_family_and_interface (ptr : Nat) (pk sk : List Nat → Int) (oldOut out : Nat → Bool) (n : Nat) (ops : List GraphOp)
    (hv : ValidHistory n ops) (codes nodes : List Nat) (edges : List (Nat × Nat))
    (hspec : ops.foldl (GraphOp.onSets n) ([], [], []) = (codes, nodes, edges)) (hfull : nodes.length = n) (hpos : 0 < n)
    (hirr : ∀ u, (u, u) ∉ edges) :
    ∃ g cliques, ops.foldlM GraphOp.run ([], Graph.new n) = ok (codes, g) ∧ graphToCliques ptr pk sk oldOut out g = ok cliques ∧
      (∀ v ∈ nodes, ∃ c ∈ cliques, v ∈ c ∧ ∀ u, (u, v) ∈ edges → u ∈ c) ∧
      (∃ c ∈ cliques, ∀ v ∈ nodes, out v = true → v ∈ c) ∧
      (∃ c ∈ cliques, ∀ v ∈ nodes, oldOut v = true → v ∈ c) := by
  obtain ⟨g, h1, h2, h3⟩ := history_holds n ops hv
  rw [hspec] at h1 h2 h3
  simp only at h1 h2 h3
  have hne : nodes ≠ [] := List.length_pos_iff.mp (by omega)
  obtain ⟨seq, A, s1, sA, s2⟩ := graphToCliques_eq ptr pk sk oldOut out h2 hfull hne hirr
  have hcom : ∀ Q : List Nat, (∀ a ∈ Q, a ∈ nodes) → (∀ a ∈ Q, ∀ b ∈ Q, a ≠ b → Linked edges oldOut out nodes a b) →
      ∃ c ∈ (keep [] seq).reverse.map (fun c => c.sort (· ≤ ·)), ∀ a ∈ Q, a ∈ c := by
    have hcom' : ∀ Q : List Nat, Q ≠ [] → (∀ a ∈ Q, a ∈ nodes) → (∀ a ∈ Q, ∀ b ∈ Q, a ≠ b → Linked edges oldOut out nodes a b) →
        ∃ c ∈ (keep [] seq).reverse.map (fun c => c.sort (· ≤ ·)), ∀ a ∈ Q, a ∈ c := by
      intro Q hQ hs hl
      obtain ⟨v, c, hc, hsub⟩ := s1.complete Q.toFinset (by simpa using hQ) (fun a ha => by
        have := hs a (by simpa using ha); simpa using this) (by
          intro a ha b hb hab
          have ha' : a ∈ Q := by simpa using ha
          have hb' : b ∈ Q := by simpa using hb
          exact (sA a b (hs a ha') (hs b hb')).mpr (hl a ha' b hb' hab))
      obtain ⟨x, hx, hcx⟩ := keep_covers seq [] v c hc
      refine ⟨x.sort (· ≤ ·), List.mem_map.mpr ⟨x, by simpa using hx, rfl⟩, ?_⟩
      intro a ha
      rw [Finset.mem_sort]
      exact hcx (hsub (by simpa using ha))
    intro Q hs hl
    by_cases hQ : Q = []
    · obtain ⟨v, hvn⟩ := List.exists_mem_of_ne_nil _ hne
      obtain ⟨c, hc, _⟩ := hcom' [v] (by simp) (by simpa using hvn) (by
        intro a ha b hb hab
        exact absurd ((List.mem_singleton.mp ha).trans (List.mem_singleton.mp hb).symm) hab)
      exact ⟨c, hc, by simp [hQ]⟩
    · exact hcom' Q hQ hs hl
  refine ⟨g, _, h1, s2, ?_, ?_, ?_⟩
  · intro v hvn
    obtain ⟨c, hc, hs⟩ := hcom (nodes.filter (fun u => u = v ∨ (u, v) ∈ edges)) (fun a ha => (List.mem_filter.mp ha).1) (by
      intro a ha b hb hab
      simp only [List.mem_filter, decide_eq_true_eq] at ha hb
      refine ⟨hab, ?_⟩
      rcases ha.2 with rfl | ha2
      · rcases hb.2 with rfl | hb2
        · exact absurd rfl hab
        · exact Or.inr (Or.inl hb2)
      · rcases hb.2 with rfl | hb2
        · exact Or.inl ha2
        · exact Or.inr (Or.inr (Or.inl ⟨v, hvn, ha2, hb2⟩)))
    refine ⟨c, hc, hs v (by simp [hvn]), ?_⟩
    intro u hu
    exact hs u (by simp only [List.mem_filter, decide_eq_true_eq]; exact ⟨(h3 _ hu).1, Or.inr hu⟩)
  · obtain ⟨c, hc, hs⟩ := hcom (nodes.filter (fun u => out u)) (fun a ha => (List.mem_filter.mp ha).1) (by
      intro a ha b hb hab
      exact ⟨hab, Or.inr (Or.inr (Or.inr (Or.inr ⟨(List.mem_filter.mp ha).2, (List.mem_filter.mp hb).2⟩)))⟩)
    exact ⟨c, hc, fun v hvn ho => hs v (List.mem_filter.mpr ⟨hvn, ho⟩)⟩
  · obtain ⟨c, hc, hs⟩ := hcom (nodes.filter (fun u => oldOut u)) (fun a ha => (List.mem_filter.mp ha).1) (by
      intro a ha b hb hab
      exact ⟨hab, Or.inr (Or.inr (Or.inr (Or.inl ⟨(List.mem_filter.mp ha).2, (List.mem_filter.mp hb).2⟩)))⟩)
    exact ⟨c, hc, fun v hvn ho => hs v (List.mem_filter.mpr ⟨hvn, ho⟩)⟩

/-- A network with two parents of a child, and two interface variables without a common child. -/
def netOps : List GraphOp := [.node 1, .node 2, .node 3, .node 4, .edge 1 3, .edge 2 3, .edge 3 4]

example : (netOps.foldlM GraphOp.run ([], Graph.new 4)).bind
    (fun r => graphToCliques 8 (clusterPrimaryCost (fun _ _ => false)) (clusterSecondaryCost (fun _ => 2)) (fun _ => false)
      (fun v => v == 1 || v == 4) r.2) = ok [[1, 2, 3], [1, 3, 4]] := by decide +kernel

example : ValidHistory 4 netOps := by
  apply validHistory_append 4 [.node 1, .node 2, .node 3, .node 4, .edge 1 3, .edge 2 3] _ _ (by decide)
  apply validHistory_append 4 [.node 1, .node 2, .node 3, .node 4, .edge 1 3] _ _ (by decide)
  apply validHistory_append 4 [.node 1, .node 2, .node 3, .node 4] _ _ (by decide)
  apply validHistory_append 4 [.node 1, .node 2, .node 3] _ _ (by decide)
  apply validHistory_append 4 [.node 1, .node 2] _ _ (by decide)
  apply validHistory_append 4 [.node 1] _ _ (by decide)
  apply validHistory_append 4 [] _ _ (by decide)
  exact validHistory_nil 4

end Nip.Props
