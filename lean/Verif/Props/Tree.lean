import Verif.TreeLemmas
import Verif.Props.Triangulate

/-!
# Properties C28, C29 and C30: connecting the cliques into a junction tree

`Spec.cliqueGraph` and `Spec.RunningIntersection` (`Verif/Spec/Tree.lean`) say what the graph of a clique tree is, and what running
intersection means; trees and paths are Mathlib's.
-/

namespace Nip.Props

open Res Spec

variable {K : Type} [Field K] [LinearOrder K]

/-- Clique `c` lists exactly the separators it is an end of, each once. -/
def ListsItsSeparators (t : JTree K) : Prop :=
  ∀ c (hc : c < t.cliques.length), t.cliques[c].sepsets.Nodup ∧
    ∀ s, s ∈ t.cliques[c].sepsets ↔ ∃ hs : s < t.sepsets.length, t.sepsets[s].first = c ∨ t.sepsets[s].second = c

theorem kinv_lists {t : JTree K} {L : List (Nat × Nat)} (h : JTree.KInv t L) (hlen : L.length + 1 = t.cliques.length) :
    ListsItsSeparators t := by
  intro c hc
  obtain ⟨F, hF, hFx⟩ := h.roots c hc
  have hadj : t.cliques[c].sepsets = F.tops := by
    have := hF.tops
    rw [List.filter_eq_self.mpr (by simp)] at this
    rw [← this]; unfold JTree.adj; rw [List.getElem?_eq_getElem hc]
  have hnd := hF.rep.seps_nodup hF.nodup
  have hsub : ∀ G : Forest, List.Sublist G.tops G.seps := by
    intro G
    induction G with
    | nil => exact List.Sublist.refl _
    | cons s d k r _ ih => exact List.Sublist.cons_cons s (ih.trans (List.sublist_append_right _ _))
  rw [hadj]
  refine ⟨hnd.sublist (hsub F), ?_⟩
  have hsl : t.sepsets.length + 1 = t.cliques.length := by
    have := congrArg List.length h.ends
    simp at this; omega
  have hspan := (JTree.spanning h.range h.forest (by omega)).2.2 hlen
  -- all cliques are in the rooted tree
  have hall : ∀ x, x < t.cliques.length → x ∈ c :: F.nodes := fun x hx => (hFx x hx).mpr (hspan x c hx hc)
  have hFlen : F.nodes.length + 1 = t.cliques.length := by
    have h1 : (c :: F.nodes).toFinset = Finset.range t.cliques.length := by
      ext x; rw [List.mem_toFinset, Finset.mem_range]; exact ⟨hF.lt x, hall x⟩
    have h2 := congrArg Finset.card h1
    rw [List.toFinset_card_of_nodup hF.nodup, Finset.card_range, List.length_cons] at h2
    exact h2
  have hseps : ∀ s, s < t.sepsets.length → s ∈ F.seps := by
    intro s hs
    have h1 : F.seps.toFinset ⊆ Finset.range t.sepsets.length := by
      intro x hx
      rw [List.mem_toFinset] at hx
      obtain ⟨a, _, b, _, hj⟩ := hF.rep.joins x hx
      rw [Finset.mem_range]; exact JTree.joins_lt hj
    have h2 := Finset.eq_of_subset_of_card_le h1 (by
      rw [List.toFinset_card_of_nodup hnd, Finset.card_range, Forest.seps_length]; omega)
    have : s ∈ F.seps.toFinset := by rw [h2]; simpa using hs
    simpa using this
  have htopj : ∀ (G : Forest), JTree.Rep t c G → ∀ s ∈ G.tops, ∃ d, JTree.Joins t s c d := by
    intro G hG
    induction G with
    | nil => intro s hs; cases hs
    | cons s d k r _ ih =>
      intro x hx
      rcases List.mem_cons.mp hx with rfl | hx
      · exact ⟨d, hG.1⟩
      · exact ih hG.2.2.2 x hx
  have hjtop : ∀ (G : Forest), JTree.Rep t c G → (c :: G.nodes).Nodup → ∀ s ∈ G.seps, ∀ d, JTree.Joins t s c d → s ∈ G.tops := by
    intro G hG hGn
    induction G with
    | nil => intro s hs; cases hs
    | cons s d k r _ ih =>
      obtain ⟨h1, _, h3, h4⟩ := hG
      simp only [Forest.nodes, List.nodup_cons, List.mem_cons, List.mem_append, not_or, List.nodup_append] at hGn
      intro x hx y hj
      simp only [Forest.seps, List.mem_cons, List.mem_append] at hx
      rcases hx with rfl | hx | hx
      · exact List.mem_cons_self ..
      · obtain ⟨a, ha, b, hb, hab⟩ := h3.joins x hx
        exfalso
        simp only [List.mem_cons] at ha hb
        rcases JTree.joins_unique hj hab with ⟨e1, _⟩ | ⟨e1, _⟩
        · rw [← e1] at ha; tauto
        · rw [← e1] at hb; tauto
      · exact List.mem_cons_of_mem _ (ih h4 (List.nodup_cons.mpr ⟨hGn.1.2.2, hGn.2.2.2.1⟩) x hx y hj)
  intro s
  constructor
  · intro hs
    obtain ⟨d, hj⟩ := htopj F hF.rep s hs
    have hlt := JTree.joins_lt hj
    refine ⟨hlt, ?_⟩
    unfold JTree.Joins JTree.ends at hj
    rw [List.getElem?_eq_getElem hlt] at hj
    simp only [Option.map_some, Option.some.injEq, Prod.mk.injEq] at hj
    rcases hj with ⟨e, _⟩ | ⟨_, e⟩
    · exact Or.inl e
    · exact Or.inr e
  · rintro ⟨hs, he⟩
    have hends : t.ends s = some (t.sepsets[s].first, t.sepsets[s].second) := by
      unfold JTree.ends; rw [List.getElem?_eq_getElem hs]; rfl
    rcases he with he | he
    · exact hjtop F hF.rep hF.nodup s (hseps s hs) t.sepsets[s].second (Or.inl (by rw [hends, he]))
    · exact hjtop F hF.rep hF.nodup s (hseps s hs) t.sepsets[s].first (Or.inr (by rw [hends, he]))

/-- **C28**: connecting any array of at least two cliques (with whatever variables, not yet connected) succeeds; there is one separator
less than cliques; cliques and separators form a tree, in which, therefore, every two cliques are connected by exactly one path; each
separator consists of the variables common to its two cliques; each clique lists exactly the separators it is an end of; and the
variables and tables of the cliques are left as they were. -/
theorem C28_spanning_tree (ptr : Nat) (card : Nat → Nat) (cliques : List (Clique K)) (hn : 2 ≤ cliques.length)
    (hnew : ∀ c ∈ cliques, c.sepsets = []) :
    ∃ t, JTree.createSepsets ptr card { cliques := cliques, sepsets := [] } = ok (0, t) ∧
      t.sepsets.length + 1 = cliques.length ∧ (cliqueGraph t).IsTree ∧
      (∀ i j : Fin t.cliques.length, ∃! p : (cliqueGraph t).Walk i j, p.IsPath) ∧
      t.cliques.map (fun c => (c.vars, c.p, c.orig)) = cliques.map (fun c => (c.vars, c.p, c.orig)) ∧
      (∀ s ∈ t.sepsets, ∃ (h1 : s.first < cliques.length) (h2 : s.second < cliques.length),
        ∀ v, v ∈ s.vars ↔ v ∈ cliques[s.first].vars ∧ v ∈ cliques[s.second].vars) ∧
      ListsItsSeparators t := by
  obtain ⟨t0, ht0⟩ : ∃ t0 : JTree K, t0 = { cliques := cliques, sepsets := [] } := ⟨_, rfl⟩
  rw [← ht0]
  have hc : t0.cliques = cliques := by rw [ht0]
  obtain ⟨t, L, c1, c2, c3, c4, c5, c6, c7, c8⟩ := JTree.createSepsets_eq ptr card t0 t0.varsOf
    (by intro i hi; unfold JTree.varsOf; rw [List.getElem?_eq_getElem hi]) (by rw [hc]; exact hn) (by rw [ht0])
    (by
      intro c
      unfold JTree.adj
      rw [hc]
      cases h : cliques[c]? with
      | none => rfl
      | some cl => exact hnew cl (List.mem_of_getElem? h))
  have htree : (cliqueGraph t).IsTree := pairGraph_tree _ L c2.ends c2.range c2.forest (by omega)
  have hvars : ∀ i (h : i < cliques.length), t0.varsOf i = cliques[i].vars := by
    intro i hi; unfold JTree.varsOf; rw [hc, List.getElem?_eq_getElem hi]
  refine ⟨t, c1, ?_, htree, htree.existsUnique_path, ?_, ?_, kinv_lists c2 (by omega)⟩
  · rw [c5]; simp [hc] at c6 ⊢; exact c6
  · apply List.ext_getElem?
    intro i
    rw [List.getElem?_map, List.getElem?_map, ← hc]
    exact c4 i
  · intro s hs
    rw [c5] at hs
    obtain ⟨e, he, rfl⟩ := List.mem_map.mp hs
    have hr := c2.range e (List.mem_reverse.mp he)
    rw [c3, hc] at hr
    refine ⟨hr.1, hr.2, ?_⟩
    intro v
    simp only [mkSep, List.mem_filter, decide_eq_true_eq]
    rw [hvars _ hr.1, hvars _ hr.2]

/-- three cliques: the two separators with most variables are confirmed -/
example : ((makeCliques (K := Rat) (fun _ => 2) [[1, 2], [2, 3, 4], [3, 4, 5]]).bind (fun cs =>
    (JTree.createSepsets 8 (fun _ => 2) { cliques := cs, sepsets := [] }).bind (fun r =>
      ok (r.1, r.2.sepsets.map (fun s => (s.vars, s.first, s.second)), r.2.cliques.map (fun c => c.sepsets))))) =
    ok (0, [([3, 4], 1, 2), ([2], 0, 1)], [[1], [1, 0], [0]]) := by decide +kernel

/-- **C29**: for every network (any history of additions giving variables and edges from parents to children), whatever costs decide the
elimination order and whatever interface markings: the clique tree built has the variable sets found by triangulation, it is a tree,
and a variable of two cliques is in every clique and every separator on the path between them. -/
theorem C29_running_intersection (ptr : Nat) (pk sk : List Nat → Int) (card : Nat → Nat) (oldOut out : Nat → Bool) (n : Nat) (ops : List GraphOp)
    (hv : ValidHistory n ops) (codes nodes : List Nat) (edges : List (Nat × Nat))
    (hspec : ops.foldl (GraphOp.onSets n) ([], [], []) = (codes, nodes, edges)) (hfull : nodes.length = n) (hpos : 0 < n)
    (hirr : ∀ u, (u, u) ∉ edges) :
    ∃ g sets code, ∃ t : JTree K, ops.foldlM GraphOp.run ([], Graph.new n) = ok (codes, g) ∧
      graphToCliques ptr pk sk oldOut out g = ok sets ∧ graphToTree ptr pk sk card oldOut out g = ok (code, t) ∧
      t.cliques.map (fun c => c.vars) = sets ∧ (cliqueGraph t).IsTree ∧ RunningIntersection t := by
  obtain ⟨g, h1, h2, h3⟩ := history_holds n ops hv
  rw [hspec] at h1 h2 h3
  simp only at h1 h2 h3
  have hne : nodes ≠ [] := List.length_pos_iff.mp (by omega)
  obtain ⟨seq, A, s1, sA, s2⟩ := graphToCliques_eq ptr pk sk oldOut out h2 hfull hne hirr
  have hk : 0 < (keep [] seq).length := by
    have hl := s1.length
    rw [List.toFinset_card_of_nodup h2.nodup] at hl
    cases seq with
    | nil => simp at hl; omega
    | cons p seq =>
      obtain ⟨x, hx, _⟩ := keep_covers (p :: seq) [] p.1 p.2 (List.mem_cons_self ..)
      exact List.length_pos_of_mem hx
  obtain ⟨code, t, L, c1, c2, c3, _, c4⟩ := createSepsets_good (K := K) ptr card s1 hk
  refine ⟨g, _, code, t, h1, s2, ?_, ?_, good_tree c2, good_running c2⟩
  · unfold graphToTree
    rw [s2, ok_bind, makeCliques_eq, ok_bind]
    exact c1
  · have := congrArg (List.map Prod.fst) c4
    simpa [List.map_map, Function.comp_def, mkClique] using this

/-- a network whose tree has three cliques on a path: 1 → 2 → 3 → 4 -/
def chainOps : List GraphOp := [.node 1, .node 2, .node 3, .node 4, .edge 1 2, .edge 2 3, .edge 3 4]

example : (chainOps.foldl (GraphOp.onSets 4) ([], [], [])).2.1.length = 4 ∧
    (∀ p ∈ (chainOps.foldl (GraphOp.onSets 4) ([], [], [])).2.2, p.1 ≠ p.2) := by decide

example : (chainOps.foldlM GraphOp.run ([], Graph.new 4)).bind
    (fun r => (graphToTree (K := Rat) 8 (clusterPrimaryCost (fun _ _ => false)) (clusterSecondaryCost (fun _ => 2)) (fun _ => 2)
      (fun _ => false) (fun _ => false) r.2).bind (fun q =>
        ok (q.1, q.2.cliques.map (fun c => c.vars), q.2.sepsets.map (fun s => (s.vars, s.first, s.second))))) =
    ok (0, [[1, 2], [3, 4], [2, 3]], [([2], 0, 2), ([3], 1, 2)]) := by decide +kernel

example : ValidHistory 4 chainOps := by
  apply validHistory_append 4 [.node 1, .node 2, .node 3, .node 4, .edge 1 2, .edge 2 3] _ _ (by decide)
  apply validHistory_append 4 [.node 1, .node 2, .node 3, .node 4, .edge 1 2] _ _ (by decide)
  apply validHistory_append 4 [.node 1, .node 2, .node 3, .node 4] _ _ (by decide)
  apply validHistory_append 4 [.node 1, .node 2, .node 3] _ _ (by decide)
  apply validHistory_append 4 [.node 1, .node 2] _ _ (by decide)
  apply validHistory_append 4 [.node 1] _ _ (by decide)
  apply validHistory_append 4 [] _ _ (by decide)
  exact validHistory_nil 4

/-- **C30**, as far as it holds: with at least two cliques the code returned is success, and a tree has been built.  Missing: a single
clique, see `C30_single_clique_refuted`. -/
theorem C30_success_partial (ptr : Nat) (card : Nat → Nat) (cliques : List (Clique K)) (hn : 2 ≤ cliques.length)
    (hnew : ∀ c ∈ cliques, c.sepsets = []) :
    ∃ t, JTree.createSepsets ptr card { cliques := cliques, sepsets := [] } = ok (0, t) ∧ (cliqueGraph t).IsTree := by
  obtain ⟨t, h1, _, h2, _⟩ := C28_spanning_tree ptr card cliques hn hnew
  exact ⟨t, h1, h2⟩

/-- **C30** is false of the code: for every array of a single clique, which is a complete tree as it is, the error `ENOMEM` is
returned: the heap of candidate separators is made for `0` items, which `nip_new_heap` refuses. -/
theorem C30_single_clique_refuted (ptr : Nat) (card : Nat → Nat) (c : Clique K) :
    JTree.createSepsets ptr card { cliques := [c], sepsets := [] } = ok (ENOMEM, { cliques := [c], sepsets := [] }) ∧
      (cliqueGraph { cliques := [c], sepsets := [] }).IsTree ∧ ENOMEM ≠ 0 := by
  refine ⟨?_, ?_, by decide⟩
  · have : JTree.buildSepsetHeap ptr card ({ cliques := [c], sepsets := [] } : JTree K) = ok none := by
      unfold JTree.buildSepsetHeap
      have h : Heap.new (α := Sepset K) ptr ((1 * (1 - 1) / 2 : Nat) : Int) = none := by simp [Heap.new]
      simp only [List.length_singleton, h]
    unfold JTree.createSepsets
    rw [this]; rfl
  exact pairGraph_tree [] [] rfl (by simp) trivial rfl

end Nip.Props
