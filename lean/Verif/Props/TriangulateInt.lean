import Verif.TriangulateIntLemmas
import Verif.Props.PotentialInt
import Verif.Props.Triangulate

/-!
# C103: costs computed during triangulation and the integers of the machine

`M` is the largest `int`; for the usual machine `2 ^ 31 - 1`.  Graphs are given by the history of additions that made them (`GraphOp`,
`Verif/Props/Graph.lean`), `card` gives the number of states of each variable, and `isParent` is the relation counted by the primary cost, any relation
at all.  The functions whose names end in `Int` are those of the library with every product and sum checked; those without calculate with unbounded
integers, and what they compute is stated in C26 and C27.
-/

namespace Nip.Props

open Res Graph

/-- A variable and its neighbours, in the order of the graph: what the library multiplies the numbers of states of. -/
def withNeighbours (nodes : List Nat) (edges : List (Nat × Nat)) (v : Nat) : List Nat := v :: nodes.filter (fun u => (v, u) ∈ edges)

/-- **C103**, building the heap of candidates: undefined exactly if for some variable a leading product of numbers of states over the variable and
its neighbours is too large, and else as with unbounded integers.  The number of pairs of variables is at most the largest `int`. -/
theorem C103_heap {M : Nat} (ptr : Nat) (isParent : Nat → Nat → Bool) (card : Nat → Nat) (n : Nat) (ops : List GraphOp) (hv : ValidHistory n ops)
    (codes nodes : List Nat) (edges : List (Nat × Nat)) (hspec : ops.foldl (GraphOp.onSets n) ([], [], []) = (codes, nodes, edges))
    (hirr : ∀ u, (u, u) ∉ edges) (hM : 1 ≤ M) (hpairs : nodes.length * (nodes.length - 1) / 2 ≤ M) :
    ∃ g, ops.foldlM GraphOp.run ([], Graph.new n) = ok (codes, g) ∧
      (g.buildClusterHeapInt ptr (primaryCostInt M isParent) (secondaryCostInt M card) = ub ↔
        ∃ v ∈ nodes, PrefixOverflows M ((withNeighbours nodes edges v).map card)) ∧
      ((¬ ∃ v ∈ nodes, PrefixOverflows M ((withNeighbours nodes edges v).map card)) →
        g.buildClusterHeapInt ptr (primaryCostInt M isParent) (secondaryCostInt M card) =
        g.buildClusterHeap ptr (clusterPrimaryCost isParent) (clusterSecondaryCost card)) := by
  obtain ⟨g, h1, h2, _⟩ := history_holds n ops hv
  rw [hspec] at h1 h2
  simp only at h1 h2
  have good : (¬ ∃ v ∈ nodes, PrefixOverflows M ((withNeighbours nodes edges v).map card)) →
        g.buildClusterHeapInt ptr (primaryCostInt M isParent) (secondaryCostInt M card) =
        g.buildClusterHeap ptr (clusterPrimaryCost isParent) (clusterSecondaryCost card) := by
    intro hno
    refine buildInt_eq ptr h2 (fun v hvn => ⟨?_, ?_⟩)
    · rw [primaryCostInt_eq, if_pos]
      refine (missing_le _ _).trans (le_trans ?_ hpairs)
      have hnd : (firstCluster nodes edges v).Nodup := by
        refine List.nodup_cons.mpr ⟨fun hm => ?_, h2.nodup.filter _⟩
        simp only [List.mem_filter, decide_eq_true_eq] at hm
        exact hirr v hm.2
      have hlen : (firstCluster nodes edges v).length ≤ nodes.length := by
        refine (List.subperm_of_subset hnd ?_).length_le
        intro u hu
        rcases List.mem_cons.mp hu with rfl | hu
        · exact hvn
        · exact (List.mem_filter.mp hu).1
      exact Nat.div_le_div_right (Nat.mul_le_mul hlen (by omega))
    · apply secondaryCostInt_eq
      intro k hk
      by_contra hc
      exact hno ⟨v, hvn, k, by simpa [withNeighbours, firstCluster] using hk, by rw [← List.map_take]; exact not_le.mp hc⟩
  refine ⟨g, h1, ⟨fun hub => ?_, ?_⟩, good⟩
  · by_contra hno
    rw [good hno] at hub
    have hne : nodes ≠ [] := by
      rintro rfl
      have h0 := h2.top
      unfold Graph.buildClusterHeap Heap.new at hub
      rw [h0] at hub
      simp at hub
    obtain ⟨hp, g', e, _⟩ := buildClusterHeap_eq ptr (clusterPrimaryCost isParent) (clusterSecondaryCost card) h2 hne
    rw [e] at hub
    cases hub
  · rintro ⟨v, hvn, k, hk, hov⟩
    refine buildInt_ub ptr h2 hvn (Or.inr (secondaryCostInt_ub hM ⟨k, by simpa [withNeighbours, firstCluster] using hk, ?_⟩))
    rw [← List.map_take] at hov
    exact hov

/-- **C103**, all rounds: if the product of the numbers of states of all variables, and the number of pairs of variables, is at most the largest `int`,
triangulation of an undirected graph is the same as with unbounded integers. -/
theorem C103_triangulation {M : Nat} (ptr : Nat) (isParent : Nat → Nat → Bool) (card : Nat → Nat) (n : Nat) (ops : List GraphOp) (hv : ValidHistory n ops)
    (codes nodes : List Nat) (edges : List (Nat × Nat)) (hspec : ops.foldl (GraphOp.onSets n) ([], [], []) = (codes, nodes, edges))
    (hfull : nodes.length = n) (hpos : 0 < n) (hsymm : ∀ u v, (u, v) ∈ edges → (v, u) ∈ edges) (hirr : ∀ u, (u, u) ∉ edges)
    (hcard : ∀ v ∈ nodes, 0 < card v) (hall : (nodes.map card).prod ≤ M) (hpairs : nodes.length * (nodes.length - 1) / 2 ≤ M) :
    ∃ g cliques, ops.foldlM GraphOp.run ([], Graph.new n) = ok (codes, g) ∧
      triangulateInt ptr (primaryCostInt M isParent) (secondaryCostInt M card) g = ok cliques ∧
      triangulate ptr (clusterPrimaryCost isParent) (clusterSecondaryCost card) g = ok cliques := by
  obtain ⟨g, h1, h2, _⟩ := history_holds n ops hv
  rw [hspec] at h1 h2
  simp only at h1 h2
  have hne : nodes ≠ [] := List.length_pos_iff.mp (by omega)
  obtain ⟨seq, s1, s2⟩ := triangulate_eq ptr (clusterPrimaryCost isParent) (clusterSecondaryCost card) h2 hfull hne (fun a b _ _ => hsymm a b) hirr
  refine ⟨g, _, h1, ?_, s2⟩
  rw [triangulateInt_eq ptr (goodCost hpairs hcard hall) h2 hfull hne (fun a b _ _ => hsymm a b) hirr, s2]

/-- **C103**, a whole network: under the same condition the cliques of a network are those computed with unbounded integers. -/
theorem C103_network {M : Nat} (ptr : Nat) (isParent : Nat → Nat → Bool) (card : Nat → Nat) (oldOut out : Nat → Bool) (n : Nat) (ops : List GraphOp)
    (hv : ValidHistory n ops) (codes nodes : List Nat) (edges : List (Nat × Nat))
    (hspec : ops.foldl (GraphOp.onSets n) ([], [], []) = (codes, nodes, edges)) (hfull : nodes.length = n) (hpos : 0 < n)
    (hirr : ∀ u, (u, u) ∉ edges)
    (hcard : ∀ v ∈ nodes, 0 < card v) (hall : (nodes.map card).prod ≤ M) (hpairs : nodes.length * (nodes.length - 1) / 2 ≤ M) :
    ∃ g cliques, ops.foldlM GraphOp.run ([], Graph.new n) = ok (codes, g) ∧ graphToCliquesInt M ptr isParent card oldOut out g = ok cliques ∧
      graphToCliques ptr (clusterPrimaryCost isParent) (clusterSecondaryCost card) oldOut out g = ok cliques := by
  obtain ⟨g, h1, h2, _⟩ := history_holds n ops hv
  rw [hspec] at h1 h2
  simp only at h1 h2
  have hne : nodes ≠ [] := List.length_pos_iff.mp (by omega)
  obtain ⟨gm, gi, gu, edges', a1, b1, c1, hH, hmem⟩ := undirected_holds oldOut out h2 hfull hirr
  obtain ⟨seq, A, s1, sA, s2⟩ := graphToCliques_eq ptr (clusterPrimaryCost isParent) (clusterSecondaryCost card) oldOut out h2 hfull hne hirr
  refine ⟨g, _, h1, ?_, s2⟩
  rw [← s2]
  unfold graphToCliquesInt graphToCliques
  rw [a1, ok_bind, ok_bind, b1, ok_bind, ok_bind, c1, ok_bind, ok_bind]
  refine triangulateInt_eq ptr (goodCost hpairs hcard hall) hH hfull hne ?_ ?_
  · intro a b ha hb hab
    rw [hmem] at hab ⊢
    exact ⟨⟨hb, ha⟩, linked_symm hab.2⟩
  · intro a ha
    rw [hmem] at ha
    exact ha.2.1 rfl

/-- **C103**, too many neighbours: in every network where a variable has parents and children such that the numbers of states of the variable and of
these, none of them zero, have too large a product, and no variable has zero states, computing the cliques is undefined. -/
theorem C103_neighbours_undefined {M : Nat} (ptr : Nat) (isParent : Nat → Nat → Bool) (card : Nat → Nat) (oldOut out : Nat → Bool) (n : Nat)
    (ops : List GraphOp) (hv : ValidHistory n ops) (codes nodes : List Nat) (edges : List (Nat × Nat))
    (hspec : ops.foldl (GraphOp.onSets n) ([], [], []) = (codes, nodes, edges)) (hfull : nodes.length = n) (hirr : ∀ u, (u, u) ∉ edges)
    (hcard : ∀ v ∈ nodes, 0 < card v) (hM : 1 ≤ M) (v : Nat) (us : List Nat) (hus : us.Nodup) (hne : us ≠ [])
    (hlink : ∀ u ∈ us, (v, u) ∈ edges ∨ (u, v) ∈ edges) (hbig : M < card v * (us.map card).prod) :
    ∃ g, ops.foldlM GraphOp.run ([], Graph.new n) = ok (codes, g) ∧ graphToCliquesInt M ptr isParent card oldOut out g = ub := by
  obtain ⟨g, h1, h2, h3⟩ := history_holds n ops hv
  rw [hspec] at h1 h2 h3
  simp only at h1 h2 h3
  obtain ⟨gm, gi, gu, edges', a1, b1, c1, hH, hmem⟩ := undirected_holds oldOut out h2 hfull hirr
  have husn : ∀ u ∈ us, u ∈ nodes ∧ v ∈ nodes := by
    intro u hu
    rcases hlink u hu with he | he
    · exact ⟨(h3 _ he).2, (h3 _ he).1⟩
    · exact ⟨(h3 _ he).1, (h3 _ he).2⟩
  obtain ⟨u0, hu0⟩ := List.exists_mem_of_ne_nil _ hne
  have hvn := (husn u0 hu0).2
  refine ⟨g, h1, ?_⟩
  unfold graphToCliquesInt
  rw [a1, ok_bind, b1, ok_bind, c1, ok_bind]
  refine triangulateInt_ub ptr hH hvn (Or.inr (secondaryCostInt_ub hM ⟨_, le_rfl, ?_⟩))
  rw [List.take_length]
  refine lt_of_lt_of_le hbig ?_
  unfold firstCluster
  rw [List.map_cons, List.prod_cons]
  refine Nat.mul_le_mul_left _ ?_
  have hsub : us.Subperm (nodes.filter (fun u => (v, u) ∈ edges')) := by
    refine List.subperm_of_subset hus (fun u hu => ?_)
    simp only [List.mem_filter, decide_eq_true_eq]
    refine ⟨(husn u hu).1, (hmem v u).mpr ⟨⟨hvn, (husn u hu).1⟩, ?_, ?_⟩⟩
    · rintro rfl
      rcases hlink _ hu with he | he <;> exact hirr _ he
    · rcases hlink u hu with he | he
      · exact Or.inl he
      · exact Or.inr (Or.inl he)
  obtain ⟨l, hl, hs⟩ := hsub
  rw [← (hl.map card).prod_eq]
  obtain ⟨r, hr⟩ := (hs.map card).exists_perm_append
  rw [hr.prod_eq, List.prod_append]
  refine Nat.le_mul_of_pos_right _ (prod_pos ?_)
  intro x hx
  have : x ∈ (nodes.filter (fun u => (v, u) ∈ edges')).map card := hr.symm.subset (List.mem_append_right _ hx)
  obtain ⟨w, hw, rfl⟩ := List.mem_map.mp this
  exact hcard w (List.mem_filter.mp hw).1

/-! ## concrete cases -/

/-- The square of `Verif/Props/Triangulate.lean` (its other hypotheses are shown there): the product over all four variables, of two states each, is
not larger than 16, and there are six pairs. -/
example : ((squareOps.foldl (GraphOp.onSets 4) ([], [], [])).2.1.map (fun _ => 2)).prod ≤ 16 ∧ 4 * (4 - 1) / 2 ≤ 16 := by decide

/-- with a largest `int` of 16 the square is triangulated -/
example : (squareOps.foldlM GraphOp.run ([], Graph.new 4)).bind
    (fun r => triangulateInt 8 (primaryCostInt 16 (fun _ _ => false)) (secondaryCostInt 16 (fun _ => 2)) r.2) =
    ok [[4, 7, 9], [2, 7, 9]] := by decide +kernel

/-- with a largest `int` of 7 it is not: a variable and its two neighbours have eight combinations of states -/
example : (squareOps.foldlM GraphOp.run ([], Graph.new 4)).bind
    (fun r => triangulateInt 8 (primaryCostInt 7 (fun _ _ => false)) (secondaryCostInt 7 (fun _ => 2)) r.2) = ub := by decide +kernel

/-- the condition for that, for the variable 4 with its neighbours 7 and 9 -/
example : PrefixOverflows 7 ((withNeighbours [4, 7, 2, 9] (squareOps.foldl (GraphOp.onSets 4) ([], [], [])).2.2 4).map (fun _ => 2)) :=
  ⟨3, by decide, by decide⟩

/-- the network of `Verif/Props/Triangulate.lean`: variable 3 has the parents 1 and 2 and the child 4, of two states each -/
example : (netOps.foldlM GraphOp.run ([], Graph.new 4)).bind
    (fun r => graphToCliquesInt 16 8 (fun _ _ => false) (fun _ => 2) (fun _ => false) (fun v => v == 1 || v == 4) r.2) = ok [[1, 2, 3], [1, 3, 4]] := by
  decide +kernel

example : (netOps.foldlM GraphOp.run ([], Graph.new 4)).bind
    (fun r => graphToCliquesInt 15 8 (fun _ _ => false) (fun _ => 2) (fun _ => false) (fun v => v == 1 || v == 4) r.2) = ub := by
  decide +kernel

/-- the hypotheses of the theorem on neighbours, for variable 3 and a largest `int` of 15 -/
example : (∀ u ∈ [1, 2, 4], (3, u) ∈ (netOps.foldl (GraphOp.onSets 4) ([], [], [])).2.2 ∨ (u, 3) ∈ (netOps.foldl (GraphOp.onSets 4) ([], [], [])).2.2) ∧
    15 < 2 * ([1, 2, 4].map (fun _ => 2)).prod := by decide

/-! ## naive Bayes networks -/

/-- The class variable `1` and `m` features `2, …, m + 1`, each with the class variable as its only parent. -/
def naiveBayes (m : Nat) : List GraphOp :=
  (List.range (m + 1)).map (fun i => GraphOp.node (i + 1)) ++ (List.range m).map (fun i => GraphOp.edge 1 (i + 2))

theorem naive_nodes (N k : Nat) (hk : k ≤ N) :
    ((List.range k).map (fun i => GraphOp.node (i + 1))).foldl (GraphOp.onSets N) ([], [], []) =
      (List.replicate k 0, (List.range k).map (· + 1), []) ∧ ValidHistory N ((List.range k).map (fun i => GraphOp.node (i + 1))) := by
  induction k with
  | zero => exact ⟨rfl, validHistory_nil N⟩
  | succ k ih =>
    obtain ⟨i1, i2⟩ := ih (by omega)
    rw [List.range_succ, List.map_append, List.map_singleton]
    constructor
    · rw [List.foldl_append, i1]
      simp only [List.foldl_cons, List.foldl_nil, GraphOp.onSets]
      rw [if_pos (by simp; omega)]
      simp [List.replicate_succ']
    · refine validHistory_append N _ _ i2 ?_
      rw [i1]
      simp

theorem naive_edges (m k : Nat) (hk : k ≤ m) :
    ((List.range (m + 1)).map (fun i => GraphOp.node (i + 1)) ++ (List.range k).map (fun i => GraphOp.edge 1 (i + 2))).foldl (GraphOp.onSets (m + 1)) ([], [], []) =
      (List.replicate (m + 1 + k) 0, (List.range (m + 1)).map (· + 1), (List.range k).map (fun i => (1, i + 2))) ∧
    ValidHistory (m + 1) ((List.range (m + 1)).map (fun i => GraphOp.node (i + 1)) ++ (List.range k).map (fun i => GraphOp.edge 1 (i + 2))) := by
  induction k with
  | zero =>
    simp only [List.range_zero, List.map_nil, List.append_nil]
    exact naive_nodes (m + 1) (m + 1) le_rfl
  | succ k ih =>
    obtain ⟨i1, i2⟩ := ih (by omega)
    rw [List.range_succ (n := k), List.map_append, List.map_singleton, ← List.append_assoc, List.map_append, List.map_singleton]
    constructor
    · rw [List.foldl_append, i1]
      simp only [List.foldl_cons, List.foldl_nil, GraphOp.onSets]
      rw [← Nat.add_assoc, List.replicate_succ']
    · refine validHistory_append (m + 1) _ _ i2 ?_
      rw [i1]
      constructor
      · simp
      · simp; omega

/-- **C103**, naive Bayes: a class variable and `m` features, all with two states.  No variable has more than one parent, so that no table of the
network has more than four cells; nevertheless with an `int` of 32 bits computing the cliques is undefined exactly if there are 30 features or more. -/
theorem C103_naive_bayes (ptr : Nat) (isParent : Nat → Nat → Bool) (m : Nat) :
    ∃ codes nodes edges g, ValidHistory (m + 1) (naiveBayes m) ∧ (naiveBayes m).foldl (GraphOp.onSets (m + 1)) ([], [], []) = (codes, nodes, edges) ∧
      (∀ v ∈ nodes, (nodes.filter (fun u => (u, v) ∈ edges)).length ≤ 1) ∧
      (naiveBayes m).foldlM GraphOp.run ([], Graph.new (m + 1)) = ok (codes, g) ∧
      (graphToCliquesInt (2 ^ 31 - 1) ptr isParent (fun _ => 2) (fun _ => false) (fun _ => false) g = ub ↔ 30 ≤ m) := by
  obtain ⟨e1, e2⟩ := naive_edges m m le_rfl
  have hirr : ∀ u, (u, u) ∉ (List.range m).map (fun i => (1, i + 2)) := by
    intro u hu
    obtain ⟨i, _, he⟩ := List.mem_map.mp hu
    simp only [Prod.mk.injEq] at he
    omega
  have hlen : ((List.range (m + 1)).map (· + 1)).length = m + 1 := by simp
  have hpr : ∀ l : List Nat, (l.map (fun _ => 2)).prod = 2 ^ l.length := by
    intro l; simp
  have hnodup : ((List.range (m + 1)).map (· + 1)).Nodup := List.nodup_range.map (fun a b h => by simpa using h)
  have hpar : ∀ v ∈ (List.range (m + 1)).map (· + 1),
      (((List.range (m + 1)).map (· + 1)).filter (fun u => (u, v) ∈ (List.range m).map (fun i => (1, i + 2)))).length ≤ 1 := by
    intro v _
    have hsub : (((List.range (m + 1)).map (· + 1)).filter (fun u => (u, v) ∈ (List.range m).map (fun i => (1, i + 2)))).Subperm [1] := by
      refine List.subperm_of_subset (hnodup.filter _) (fun u hu => ?_)
      simp only [List.mem_filter, decide_eq_true_eq] at hu
      obtain ⟨i, _, he⟩ := List.mem_map.mp hu.2
      simp only [Prod.mk.injEq] at he
      simp [← he.1]
    exact hsub.length_le
  by_cases h30 : 30 ≤ m
  · obtain ⟨g, r1, r2⟩ := C103_neighbours_undefined (M := 2 ^ 31 - 1) ptr isParent (fun _ => 2) (fun _ => false) (fun _ => false) (m + 1) (naiveBayes m) e2 _ _ _ e1
      hlen hirr (by simp) (by norm_num) 1 ((List.range m).map (· + 2)) (List.nodup_range.map (fun a b h => by simpa using h))
      (by simp; omega) (by
        intro u hu
        obtain ⟨i, hi, rfl⟩ := List.mem_map.mp hu
        exact Or.inl (List.mem_map.mpr ⟨i, hi, rfl⟩))
      (by
        rw [hpr]
        simp only [List.length_map, List.length_range]
        have : 2 ^ 30 ≤ 2 ^ m := Nat.pow_le_pow_right (by norm_num) h30
        omega)
    exact ⟨_, _, _, g, e2, e1, hpar, r1, by rw [r2]; simp [h30]⟩
  · obtain ⟨g, cl, r1, r2, _⟩ := C103_network (M := 2 ^ 31 - 1) ptr isParent (fun _ => 2) (fun _ => false) (fun _ => false) (m + 1) (naiveBayes m) e2 _ _ _ e1
      hlen (by omega) hirr (by simp)
      (by
        rw [hpr, hlen]
        have : 2 ^ (m + 1) ≤ 2 ^ 30 := Nat.pow_le_pow_right (by norm_num) (by omega)
        omega)
      (by
        rw [hlen]
        have : (m + 1) * (m + 1 - 1) ≤ 30 * 30 := Nat.mul_le_mul (by omega) (by omega)
        omega)
    exact ⟨_, _, _, g, e2, e1, hpar, r1, by rw [r2]; simp [h30]⟩

end Nip.Props
