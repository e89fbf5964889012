import Verif.GraphLemmas
import Mathlib.Data.List.Induction

/-!
# Properties C22–C25: graphs
-/

namespace Nip.Props

open Res Graph

/-! ## C22 -/

/-- An addition to a graph. -/
inductive GraphOp where
  | node (v : Nat)
  | edge (parent child : Nat)
deriving Repr, DecidableEq

/-- Run an addition; the codes returned are collected. -/
def GraphOp.run (st : List Nat × Graph) : GraphOp → Res (List Nat × Graph)
  | .node v => do
    let (e, g) ← st.2.addNode v
    ok (st.1 ++ [e], g)
  | .edge u v => do
    let (e, g) ← st.2.addChild u v
    ok (st.1 ++ [e], g)

/-- What the additions mean for a graph of capacity `n`: codes returned, nodes in order, edges. -/
def GraphOp.onSets (n : Nat) (st : List Nat × List Nat × List (Nat × Nat)) : GraphOp → List Nat × List Nat × List (Nat × Nat)
  | .node v => if st.2.1.length < n then (st.1 ++ [0], st.2.1 ++ [v], st.2.2) else (st.1 ++ [ERANGE], st.2.1, st.2.2)
  | .edge u v => (st.1 ++ [0], st.2.1, st.2.2 ++ [(u, v)])

/-- Histories considered: every added variable is new (and has a valid identity); edges are between nodes that are there. -/
def ValidHistory (n : Nat) : List GraphOp → Prop
  | ops => ∀ pre op post, ops = pre ++ op :: post →
    match op with
    | .node v => 0 < v ∧ v ∉ (pre.foldl (GraphOp.onSets n) ([], [], [])).2.1
    | .edge u v => u ∈ (pre.foldl (GraphOp.onSets n) ([], [], [])).2.1 ∧ v ∈ (pre.foldl (GraphOp.onSets n) ([], [], [])).2.1

theorem history_holds (n : Nat) (ops : List GraphOp) (hv : ValidHistory n ops) :
    ∃ g, ops.foldlM GraphOp.run ([], Graph.new n) = ok ((ops.foldl (GraphOp.onSets n) ([], [], [])).1, g) ∧
      Holds g n (ops.foldl (GraphOp.onSets n) ([], [], [])).2.1 (ops.foldl (GraphOp.onSets n) ([], [], [])).2.2 ∧
      ∀ e ∈ (ops.foldl (GraphOp.onSets n) ([], [], [])).2.2, e.1 ∈ (ops.foldl (GraphOp.onSets n) ([], [], [])).2.1 ∧
        e.2 ∈ (ops.foldl (GraphOp.onSets n) ([], [], [])).2.1 := by
  induction ops using List.reverseRecOn with
  | nil => exact ⟨Graph.new n, rfl, Holds.new n, by simp⟩
  | append_singleton ops op ih =>
    obtain ⟨g, h1, h2, h3⟩ := ih (by
      intro pre o post he
      exact hv pre o (post ++ [op]) (by rw [he]; simp))
    have hop := hv ops op [] rfl
    rw [List.foldlM_append, h1, List.foldl_append]
    simp only [List.foldlM_cons, List.foldlM_nil, List.foldl_cons, List.foldl_nil, ok_bind]
    generalize hst : ops.foldl (GraphOp.onSets n) ([], [], []) = st at *
    obtain ⟨codes, nodes, edges⟩ := st
    simp only at h2 h3 hop
    cases op with
    | node v =>
      simp only at hop
      simp only [GraphOp.run, GraphOp.onSets]
      by_cases hroom : nodes.length < n
      · rw [if_pos hroom]
        obtain ⟨g', a1, a2⟩ := addNode_holds h2 hop.2 hop.1 hroom
          (fun e he => ⟨fun x => hop.2 (x ▸ (h3 e he).1), fun x => hop.2 (x ▸ (h3 e he).2)⟩)
        refine ⟨g', by rw [a1]; rfl, a2, ?_⟩
        intro e he
        exact ⟨List.mem_append_left _ (h3 e he).1, List.mem_append_left _ (h3 e he).2⟩
      · rw [if_neg hroom]
        refine ⟨g, by rw [addNode_full h2 v (by have := h2.le; omega)]; rfl, h2, h3⟩
    | edge u v =>
      simp only at hop
      simp only [GraphOp.run, GraphOp.onSets]
      obtain ⟨g', a1, a2⟩ := addChild_holds h2 hop.1 hop.2
      refine ⟨g', by rw [a1]; rfl, a2, ?_⟩
      intro e he
      rcases List.mem_append.mp he with he | he
      · exact h3 e he
      · have : e = (u, v) := by simpa using he
        subst this; exact hop

/-- **C22**: after any history of additions to a new graph of any capacity: the codes returned are as specified (zero, or `ERANGE`
for a node beyond the capacity); every stored node is found at its insertion position; two nodes are reported linked exactly when
that edge was added in that direction. -/
theorem C22_graph (n : Nat) (ops : List GraphOp) (hv : ValidHistory n ops) (codes nodes : List Nat) (edges : List (Nat × Nat))
    (hspec : ops.foldl (GraphOp.onSets n) ([], [], []) = (codes, nodes, edges)) :
    ∃ g, ops.foldlM GraphOp.run ([], Graph.new n) = ok (codes, g) ∧ g.top = nodes.length ∧
      (∀ i v, nodes[i]? = some v → ∃ g', g.index v = ok (some i, g')) ∧
      (∀ u v, u ∈ nodes → v ∈ nodes → ∃ b g', g.linked u v = ok (b, g') ∧ (b = true ↔ (u, v) ∈ edges)) := by
  obtain ⟨g, h1, h2, _⟩ := history_holds n ops hv
  rw [hspec] at h1 h2
  refine ⟨g, h1, h2.top, ?_, ?_⟩
  · intro i v hi
    obtain ⟨g', a, _, _⟩ := index_mem h2 hi
    exact ⟨g', a⟩
  · intro u v hu hw
    obtain ⟨b, g', a, hb, _⟩ := linked_eq h2 hu hw
    exact ⟨b, g', a, hb⟩

/-- **C22** (capacity): an addition to a full graph is refused and leaves the graph exactly as it was. -/
theorem C22_full (n : Nat) (ops : List GraphOp) (hv : ValidHistory n ops)
    (hfull : (ops.foldl (GraphOp.onSets n) ([], [], [])).2.1.length = n) (v : Nat) :
    ∃ codes g, ops.foldlM GraphOp.run ([], Graph.new n) = ok (codes, g) ∧ g.addNode v = ok (ERANGE, g) := by
  obtain ⟨g, h1, h2, _⟩ := history_holds n ops hv
  exact ⟨_, g, h1, addNode_full h2 v hfull⟩

/-- a concrete history: queries between additions and one node too many -/
example : ([.node 5, .node 3, .edge 5 3, .node 9, .edge 9 5, .node 4] : List GraphOp).foldl (GraphOp.onSets 3) ([], [], []) =
    ([0, 0, 0, 0, 0, ERANGE], [5, 3, 9], [(5, 3), (9, 5)]) := by decide

theorem validHistory_nil (n : Nat) : ValidHistory n [] := by
  intro pre op post h; simp at h

theorem validHistory_append (n : Nat) (ops : List GraphOp) (op : GraphOp) (h : ValidHistory n ops)
    (hop : match op with
      | .node v => 0 < v ∧ v ∉ (ops.foldl (GraphOp.onSets n) ([], [], [])).2.1
      | .edge u v => u ∈ (ops.foldl (GraphOp.onSets n) ([], [], [])).2.1 ∧ v ∈ (ops.foldl (GraphOp.onSets n) ([], [], [])).2.1) :
    ValidHistory n (ops ++ [op]) := by
  intro pre o post he
  rcases List.eq_nil_or_concat post with rfl | ⟨post', z, rfl⟩
  · have := List.append_inj' he rfl
    obtain ⟨rfl, h2⟩ := this
    cases h2; exact hop
  · have he' : ops ++ [op] = (pre ++ o :: post') ++ [z] := by rw [he]; simp
    obtain ⟨rfl, _⟩ := List.append_inj' he' rfl
    exact h pre o post' rfl

/-- the history above is one the theorem speaks about -/
example : ValidHistory 3 [.node 5, .node 3, .edge 5 3, .node 9, .edge 9 5, .node 4] := by
  apply validHistory_append 3 [.node 5, .node 3, .edge 5 3, .node 9, .edge 9 5] _ _ (by decide)
  apply validHistory_append 3 [.node 5, .node 3, .edge 5 3, .node 9] _ _ (by decide)
  apply validHistory_append 3 [.node 5, .node 3, .edge 5 3] _ _ (by decide)
  apply validHistory_append 3 [.node 5, .node 3] _ _ (by decide)
  apply validHistory_append 3 [.node 5] _ _ (by decide)
  apply validHistory_append 3 [] _ _ (by decide)
  exact validHistory_nil 3

/-! ## C23 -/

/-- **C23** is false of the code: asking *any* graph about a variable created later than all its nodes (or before all of them, or
asking an empty graph about anything) reads outside the index table. -/
theorem C23_refuted (n : Nat) (ops : List GraphOp) (hv : ValidHistory n ops) (v : Nat) (hpos : 0 < v)
    (h : (∀ u ∈ (ops.foldl (GraphOp.onSets n) ([], [], [])).2.1, u < v) ∨
      ((ops.foldl (GraphOp.onSets n) ([], [], [])).2.1 ≠ [] ∧ ∀ u ∈ (ops.foldl (GraphOp.onSets n) ([], [], [])).2.1, v < u)) :
    ∃ codes g, ops.foldlM GraphOp.run ([], Graph.new n) = ok (codes, g) ∧ g.index v = ub := by
  obtain ⟨g, h1, h2, _⟩ := history_holds n ops hv
  refine ⟨_, g, h1, ?_⟩
  generalize hst : ops.foldl (GraphOp.onSets n) ([], [], []) = st at *
  obtain ⟨codes, nodes, edges⟩ := st
  simp only at h h2
  have hext := h2.ext
  have key : ∀ g' t, Holds g' n nodes edges → g'.varInd = some t → g'.minId = g.minId → g'.maxId = g.maxId →
      g'.lookup t v = ub := by
    intro g' t hg' ht hmin hmax
    unfold lookup
    have hlen := (hg'.ind t ht).1
    by_cases hlt : v < g'.minId
    · rw [if_pos hlt]
    · rw [if_neg hlt, rd_ge]
      · rfl
      · rw [hlen]
        by_cases hnil : nodes = []
        · have := hg'.nil hnil; omega
        · rcases h with h | h
          · have := h _ (hext hnil).2
            have := h2.range _ (hext hnil).1
            omega
          · have := h.2 _ (hext hnil).1
            omega
  unfold index
  cases ht : g.varInd with
  | some t => simp only [ok_bind, ht, Option.getD_some, key g t h2 ht rfl rfl, ub_bind]
  | none =>
    obtain ⟨t, a1, a2⟩ := buildIndex_holds h2
    simp only [a1, ok_bind, Option.getD_some, key _ t a2 rfl rfl rfl, ub_bind]

/-- a concrete graph with nodes 5 and 3, asked about a later variable -/
example : (([.node 5, .node 3] : List GraphOp).foldlM GraphOp.run ([], Graph.new 2)).bind (fun r => r.2.index 6) = ub := by decide

/-- **C23**, what holds: a variable whose identity lies between those of two nodes is answered correctly, and the access stays inside
the table.  Missing: variables outside that range, for which the claim is false (`C23_refuted`). -/
theorem C23_in_range_partial (n : Nat) (ops : List GraphOp) (hv : ValidHistory n ops) (v lo hi : Nat)
    (hlo : lo ∈ (ops.foldl (GraphOp.onSets n) ([], [], [])).2.1) (hhi : hi ∈ (ops.foldl (GraphOp.onSets n) ([], [], [])).2.1)
    (h1 : lo ≤ v) (h2 : v ≤ hi) :
    ∃ codes g r g', ops.foldlM GraphOp.run ([], Graph.new n) = ok (codes, g) ∧ g.index v = ok (r, g') ∧
      (∀ i, r = some i ↔ (ops.foldl (GraphOp.onSets n) ([], [], [])).2.1[i]? = some v) ∧
      (r = none ↔ v ∉ (ops.foldl (GraphOp.onSets n) ([], [], [])).2.1) := by
  obtain ⟨g, a1, a2, _⟩ := history_holds n ops hv
  generalize hst : ops.foldl (GraphOp.onSets n) ([], [], []) = st at *
  obtain ⟨codes, nodes, edges⟩ := st
  simp only at hlo hhi a2 ⊢
  by_cases hm : v ∈ nodes
  · obtain ⟨i, hi'⟩ := List.getElem?_of_mem hm
    obtain ⟨g', b1, _, _⟩ := index_mem a2 hi'
    refine ⟨codes, g, some i, g', a1, b1, ?_, by simp [hm]⟩
    intro k
    constructor
    · rintro h; cases h; exact hi'
    · intro hk
      rw [(List.getElem?_inj (List.getElem?_eq_some_iff.mp hk).1 a2.nodup).mp (hk.trans hi'.symm)]
  · have hne : nodes ≠ [] := List.ne_nil_of_mem hlo
    have hr1 := a2.range lo hlo
    have hr2 := a2.range hi hhi
    have hnone : ∀ i : Nat, (none : Option Nat) = some i ↔ nodes[i]? = some v :=
      fun i => ⟨by simp, fun hk => absurd (List.mem_of_getElem? hk) hm⟩
    unfold index
    cases ht : g.varInd with
    | some t =>
      refine ⟨codes, g, none, g, a1, ?_, hnone, by simp [hm]⟩
      simp only [ok_bind, ht, Option.getD_some]
      rw [lookup_not_mem a2 ht hm (by omega) (by omega) ((a2.ind t ht).2.2 hne), ok_bind]
    | none =>
      obtain ⟨t, c1, c2⟩ := buildIndex_holds a2
      refine ⟨codes, g, none, { g with varInd := some t }, a1, ?_, hnone, by simp [hm]⟩
      simp only [ht, c1, ok_bind, Option.getD_some]
      rw [lookup_not_mem c2 rfl hm (by simp only; omega) (by simp only; omega) ((c2.ind t rfl).2.2 hne), ok_bind]

example : (([.node 5, .node 3] : List GraphOp).foldlM GraphOp.run ([], Graph.new 2)).bind (fun r => do
    let x ← r.2.index 4
    let y ← r.2.index 3
    ok (x.1, y.1)) = ok (none, some 1) := by decide

/-! ## C24 and C25

A graph made by the library has an adjacency matrix of `size * size` entries and `size` places for variables (`Graph.Wf`, proved
for every history by `wf_history`).  `Arc g i j` says that the matrix has an arc from the node at position `i` to that at `j`.
That the original graph is unchanged is visible in the type of the model functions: they only write the matrix of the copy. -/

/-- There is an arc from position `i` to position `j`. -/
def Arc (g : Graph) (i j : Nat) : Prop := g.adj[i * g.size + j]? = some true

instance (g : Graph) (i j : Nat) : Decidable (Arc g i j) := by unfold Arc; infer_instance

theorem arc_val {g : Graph} (h : Wf g) {i j : Nat} (hi : i < g.size) (hj : j < g.size) : Arc g i j ↔ g.val i j = true := by
  have hlt : i * g.size + j < g.adj.length := by rw [h.adjLen]; exact flat_lt hi hj
  unfold Arc val
  rw [List.getElem?_eq_getElem hlt, List.getD_eq_getElem _ _ hlt]; simp

theorem wf_history (n : Nat) (ops : List GraphOp) (hv : ValidHistory n ops) :
    ∃ codes g, ops.foldlM GraphOp.run ([], Graph.new n) = ok (codes, g) ∧ Wf g := by
  obtain ⟨g, h1, h2, _⟩ := history_holds n ops hv
  exact ⟨_, g, h1, h2.wf⟩

/-- **C24**: the moralised copy has the same nodes, and two nodes are linked in it exactly if they were linked (in that direction)
before, or they are different and have a common child. -/
theorem C24_moralise (g : Graph) (h : Wf g) :
    ∃ gm, g.moralise = ok gm ∧ gm.size = g.size ∧ gm.vars = g.vars ∧ gm.top = g.top ∧ Wf gm ∧
      ∀ i j, i < g.size → j < g.size →
        (Arc gm i j ↔ Arc g i j ∨ (i ≠ j ∧ ∃ c, c < g.size ∧ Arc g i c ∧ Arc g j c)) := by
  obtain ⟨gm, h1, h2, h3⟩ := moralise_eq h
  refine ⟨gm, h1, h2.size, h2.vars, h2.top, h2.wf, ?_⟩
  intro i j hi hj
  rw [arc_val h2.wf (by rw [h2.size]; exact hi) (by rw [h2.size]; exact hj), h3 i j hi hj, arc_val h hi hj]
  constructor
  · rintro (h4 | ⟨hne, c, hc, ha, hb⟩)
    · exact Or.inl h4
    · exact Or.inr ⟨hne, c, hc, (arc_val h hi hc).mpr ha, (arc_val h hj hc).mpr hb⟩
  · rintro (h4 | ⟨hne, c, hc, ha, hb⟩)
    · exact Or.inl h4
    · exact Or.inr ⟨hne, c, hc, (arc_val h hi hc).mp ha, (arc_val h hj hc).mp hb⟩

/-- **C25** (undirecting): in the undirected copy two nodes are linked exactly if they were linked in some direction. -/
theorem C25_undirected (g : Graph) (h : Wf g) :
    ∃ gu, g.makeUndirected = ok gu ∧ gu.size = g.size ∧ gu.vars = g.vars ∧ gu.top = g.top ∧ Wf gu ∧
      ∀ i j, i < g.size → j < g.size → (Arc gu i j ↔ Arc g i j ∨ Arc g j i) := by
  obtain ⟨gu, h1, h2, h3⟩ := makeUndirected_eq h
  refine ⟨gu, h1, h2.size, h2.vars, h2.top, h2.wf, ?_⟩
  intro i j hi hj
  rw [arc_val h2.wf (by rw [h2.size]; exact hi) (by rw [h2.size]; exact hj), h3 i j hi hj, arc_val h hi hj, arc_val h hj hi,
    Bool.or_eq_true]

/-- **C25** (interface): for a graph filled to its capacity, the copy has, besides the existing links, exactly the links between
different variables that are both outgoing or both previous-outgoing interface variables. -/
theorem C25_interface (oldOut out : Nat → Bool) (g : Graph) (h : Wf g) (nodes : List Nat) (hn : g.vars = nodes.map some) :
    ∃ gi, g.addInterfaceEdges oldOut out = ok gi ∧ gi.size = g.size ∧ gi.vars = g.vars ∧ gi.top = g.top ∧ Wf gi ∧
      ∀ (i j : Nat) (u v : Nat), nodes[i]? = some u → nodes[j]? = some v →
        (Arc gi i j ↔ Arc g i j ∨
          (i ≠ j ∧ ((oldOut u = true ∧ oldOut v = true) ∨ (out u = true ∧ out v = true)))) := by
  have hlen : nodes.length = g.size := by have := h.varsLen; rw [hn] at this; simpa using this
  obtain ⟨gi, h1, h2, h3⟩ := addInterfaceEdges_eq (oldOut := oldOut) (out := out) h hn
  refine ⟨gi, h1, h2.size, h2.vars, h2.top, h2.wf, ?_⟩
  intro i j u v hu hv
  have hi : i < g.size := by rw [← hlen]; exact (List.getElem?_eq_some_iff.mp hu).1
  have hj : j < g.size := by rw [← hlen]; exact (List.getElem?_eq_some_iff.mp hv).1
  rw [arc_val h2.wf (by rw [h2.size]; exact hi) (by rw [h2.size]; exact hj), h3 i j hi hj, arc_val h hi hj]
  have : (∃ u' v', nodes[i]? = some u' ∧ nodes[j]? = some v' ∧ Ifc oldOut out u' v' = true) ↔
      ((oldOut u = true ∧ oldOut v = true) ∨ (out u = true ∧ out v = true)) := by
    constructor
    · rintro ⟨u', v', hu', hv', hI⟩
      rw [hu] at hu'; rw [hv] at hv'; cases hu'; cases hv'
      simpa [Ifc] using hI
    · intro hI; exact ⟨u, v, hu, hv, by simpa [Ifc] using hI⟩
  rw [this]

/-- a graph on which all three act: 7 → 9 ← 8, with 7 and 10 in the outgoing interface -/
def graphExample : Res Graph :=
  (([.node 7, .node 8, .node 9, .node 10, .edge 7 9, .edge 8 9] : List GraphOp).foldlM GraphOp.run ([], Graph.new 4)).bind
    (fun r => ok r.2)

example : graphExample.bind (fun g => g.moralise) = graphExample.bind (fun g =>
    (g.setAdjm 0 1 true).bind (fun g => (g.setAdjm 1 0 true).bind (fun g => ok g.copy))) := by decide

example : graphExample.bind (fun g => g.addInterfaceEdges (fun _ => false) (fun v => v == 7 || v == 10)) =
    graphExample.bind (fun g => (g.setAdjm 0 3 true).bind (fun g => (g.setAdjm 3 0 true).bind (fun g => ok g.copy))) := by decide

end Nip.Props
