import Verif.GraphMemoryLemmas

/-!
# Lemmas about changes of graphs in memory
-/

namespace Nip

open Res Spec Store

/-- where a graph is after a change -/
structure GEntry.Moved (e e' : GEntry) (m m' : GraphMemory) (M : Multiset Nat) : Prop where
  addr : e'.addr = e.addr
  within : m'.Within (e'.blocks + M)
  keeps : m.Keeps m' M

theorem GEntry.Moved.trans {e e' e'' : GEntry} {m m' m'' : GraphMemory} {M : Multiset Nat} (h : e.Moved e' m m' M) (h' : e'.Moved e'' m' m'' M) : e.Moved e'' m m'' M :=
  ⟨h'.addr.trans h.addr, h'.within, h.keeps.trans h'.keeps⟩

theorem buildTable_spec {m : GraphMemory} {M : Multiset Nat} {e : GEntry} {G : Graph} {n : Nat} {nodes : List Nat} {edges : List (Nat × Nat)} (h : m.Within (e.blocks + M)) (hg : e.Good m G)
    (hh : G.Holds n nodes edges) :
    ∃ (b : Bool) (m' : GraphMemory) (e' : GEntry) (G' : Graph), m.buildTable (.block e.addr) = ok (b, m') ∧ e.Moved e' m m' M ∧ e'.Good m' G' ∧ G'.Holds n nodes edges ∧
      ((b = false ∧ e'.ind = .null) ∨ (b = true ∧ ∃ d, e'.ind = .block d)) := by
  unfold buildTable
  rw [graphAt_eq hg.cell, ok_bind]
  rw [show (e.cell G).ind = e.ind from rfl]
  obtain ⟨m1, a1, w1, k1, n1⟩ := Within.release (M := {e.addr} + ({e.adjAt} + ({e.varsAt} + M))) hg.junk (h.as (by unfold GEntry.blocks; ac_rfl))
  rw [a1, ok_bind]
  have le3 : M ≤ {e.addr} + ({e.adjAt} + ({e.varsAt} + M)) := ((Multiset.le_add_left _ _).trans (Multiset.le_add_left _ _)).trans (Multiset.le_add_left _ _)
  have le2 : M ≤ {e.adjAt} + ({e.varsAt} + M) := (Multiset.le_add_left _ _).trans (Multiset.le_add_left _ _)
  rcases w1.any (.table (List.replicate ((e.cell G).maxId - (e.cell G).minId + 1) 0)) with ⟨m2, a2, f2, w2, k2, n2⟩ | ⟨m2, a2, f2, w2, b2, k2, n2⟩
  · simp only [a2]
    obtain ⟨m3, a3, w3, b3, k3, n3⟩ := Within.write w2 (.graph { e.cell G with ind := .null })
    rw [a3, ok_bind]
    refine ⟨false, m3, { e with ind := .null }, G.bare, rfl, ⟨rfl, w3.as (by simp only [GEntry.blocks, MemPtr.blocks, add_zero]; ac_rfl), (k1.mono le3).trans ((k2.mono le3).trans (k3.mono le2))⟩,
      ⟨b3, ?_, ?_, Or.inl ⟨rfl, rfl⟩⟩, hh.bare, Or.inl ⟨rfl, rfl⟩⟩
    · show m3.blocks e.adjAt = _
      rw [k3.same _ (by simp), k2.same _ (by simp), k1.same _ (by simp)]
      exact hg.adj
    · show m3.blocks e.varsAt = _
      rw [k3.same _ (by simp), k2.same _ (by simp), k1.same _ (by simp)]
      exact hg.vars
  simp only [a2]
  obtain ⟨m3, a3, w3, b3, k3, n3⟩ := Within.write (a := e.addr) (M := {m1.next} + ({e.adjAt} + ({e.varsAt} + M))) (w2.as (by ac_rfl)) (.graph { e.cell G with ind := .block m1.next })
  rw [a3, ok_bind]
  simp only [beq_iff_eq, reduceCtorEq, if_false]
  have h3 : GEntry.Good { e with ind := .block m1.next } m3 { G with varInd := some (List.replicate ((e.cell G).maxId - (e.cell G).minId + 1) 0) } := by
    refine ⟨b3, ?_, ?_, Or.inr ⟨m1.next, _, rfl, rfl, ?_⟩⟩
    · show m3.blocks e.adjAt = _
      rw [k3.same _ (by simp), k2.same _ (by simp), k1.same _ (by simp)]
      exact hg.adj
    · show m3.blocks e.varsAt = _
      rw [k3.same _ (by simp), k2.same _ (by simp), k1.same _ (by simp)]
      exact hg.vars
    · rw [k3.same _ (by simp)]
      exact b2
  have hv : m3.graphValue (.block e.addr) = ok G.bare := h3.value
  rw [hv, ok_bind]
  obtain ⟨t, ht, hh'⟩ := Graph.buildIndex_holds hh.bare
  rw [ht, ok_bind]
  obtain ⟨m4, a4, w4, b4, k4, n4⟩ := Within.write (a := m1.next) (M := {e.addr} + ({e.adjAt} + ({e.varsAt} + M))) (w3.as (by ac_rfl)) (.table t)
  rw [show ((some t : Option (List Nat)).getD []) = t from rfl, a4, ok_bind]
  refine ⟨true, m4, { e with ind := .block m1.next }, _, rfl, ⟨rfl, w4.as (by simp only [GEntry.blocks, MemPtr.blocks]; ac_rfl),
    (k1.mono le3).trans ((k2.mono le3).trans ((k3.mono (le2.trans (Multiset.le_add_left _ _))).trans (k4.mono le3)))⟩, ⟨?_, ?_, ?_, Or.inr ⟨m1.next, t, rfl, rfl, b4⟩⟩, hh', Or.inr ⟨rfl, _, rfl⟩⟩
  · rw [k4.same _ (by simp)]
    exact h3.cell
  · rw [k4.same _ (by simp)]
    exact h3.adj
  · rw [k4.same _ (by simp)]
    exact h3.vars

theorem searchNodes_eq {nodes : List Nat} {rest : List (Option Nat)} (hn : nodes.Nodup) {v j : Nat} (hv : nodes[j]? = some v) :
    ∀ k i, i ≤ j → i + k = nodes.length → searchNodes (nodes.map some ++ rest) v k i = ok (some j) := by
  intro k
  induction k with
  | zero =>
    intro i hi hk
    have := (List.getElem?_eq_some_iff.mp hv).1
    omega
  | succ k ih =>
    intro i hi hk
    unfold searchNodes
    have hl : i < nodes.length := by omega
    have hr : rd (nodes.map some ++ rest) i = ok (some nodes[i]) := by
      rw [rd_eq_ok, List.getElem?_append_left (by simpa using hl)]
      simp [hl]
    rw [hr, ok_bind]
    obtain ⟨hj, hv'⟩ := List.getElem?_eq_some_iff.mp hv
    by_cases hij : i = j
    · subst hij
      simp [hv']
    · have hne : nodes[i] ≠ v := by
        intro hc
        exact hij ((hn.getElem_inj_iff).mp (hc.trans hv'.symm))
      simp only [beq_iff_eq, Option.some.injEq, hne, if_false]
      exact ih (i + 1) (by omega) (by omega)

theorem searchTable_spec {m : GraphMemory} {e : GEntry} {G : Graph} {n : Nat} {nodes : List Nat} {edges : List (Nat × Nat)} (hg : e.Good m G) (hh : G.Holds n nodes edges) {d : Nat}
    (hd : e.ind = .block d) {i v : Nat} (hv : nodes[i]? = some v) : m.searchTable (.block e.addr) v = ok (some i) := by
  unfold searchTable
  rw [graphAt_eq hg.cell, ok_bind]
  rcases hg.ind with ⟨h1, _⟩ | ⟨d', t, h1, h2, h3⟩
  · rw [h1] at hd; cases hd
  rw [show (e.cell G).ind = e.ind from rfl, h1, tableAt_eq h3, ok_bind, hg.value, ok_bind]
  have := Graph.lookup_mem hh h2 hv
  exact this

theorem findNode_spec {m : GraphMemory} {M : Multiset Nat} {e : GEntry} {G : Graph} {n : Nat} {nodes : List Nat} {edges : List (Nat × Nat)} (h : m.Within (e.blocks + M)) (hg : e.Good m G)
    (hh : G.Holds n nodes edges) {i v : Nat} (hv : nodes[i]? = some v) :
    ∃ (m' : GraphMemory) (e' : GEntry) (G' : Graph), m.findNode (.block e.addr) v = ok (some i, m') ∧ e.Moved e' m m' M ∧ e'.Good m' G' ∧ G'.Holds n nodes edges := by
  unfold findNode
  rw [show MemPtr.isNull (.block e.addr) = ok false from rfl, ok_bind]
  simp only [Bool.false_eq_true, if_false]
  rw [graphAt_eq hg.cell, ok_bind, show (e.cell G).ind = e.ind from rfl]
  rcases hg.ind with ⟨h1, h2⟩ | ⟨d, t, h1, h2, h3⟩
  · rw [h1, show MemPtr.isNull .null = ok true from rfl, ok_bind]
    simp only [if_true]
    obtain ⟨b, m1, e1, G1, a1, mv, g1, hh1, hb⟩ := buildTable_spec h hg hh
    rw [a1, ok_bind]
    rcases hb with ⟨rfl, hi⟩ | ⟨rfl, d, hd⟩
    · simp only [Bool.false_eq_true, if_false]
      rw [← mv.addr, graphAt_eq g1.cell, ok_bind, show (e1.cell G1).vars = .block e1.varsAt from rfl, nodesAt_eq g1.vars, ok_bind, hh1.vars, show (e1.cell G1).top = G1.top from rfl, hh1.top,
        searchNodes_eq hh1.nodup hv _ 0 (Nat.zero_le _) (Nat.zero_add _), ok_bind]
      exact ⟨m1, e1, G1, rfl, mv, g1, hh1⟩
    · simp only [if_true]
      rw [← mv.addr, searchTable_spec g1 hh1 hd hv, ok_bind]
      exact ⟨m1, e1, G1, rfl, mv, g1, hh1⟩
  · rw [h1, show MemPtr.isNull (.block d) = ok false from rfl, ok_bind]
    simp only [Bool.false_eq_true, if_false]
    rw [searchTable_spec hg hh h1 hv, ok_bind]
    exact ⟨m, e, G, rfl, ⟨rfl, h, Keeps.refl _ _⟩, hg, hh⟩

theorem addEdgeAt_spec {m : GraphMemory} {M : Multiset Nat} {e : GEntry} {G : Graph} {n : Nat} {nodes : List Nat} {edges : List (Nat × Nat)} (h : m.Within (e.blocks + M)) (hg : e.Good m G)
    (hh : G.Holds n nodes edges) {u v : Nat} (hu : u ∈ nodes) (hv : v ∈ nodes) :
    ∃ (m' : GraphMemory) (e' : GEntry) (G' : Graph), m.addEdgeAt (.block e.addr) u v = ok (0, m') ∧ e.Moved e' m m' M ∧ e'.Good m' G' ∧ G'.Holds n nodes (edges ++ [(u, v)]) := by
  obtain ⟨i, hi⟩ := List.getElem?_of_mem hu
  obtain ⟨j, hj⟩ := List.getElem?_of_mem hv
  obtain ⟨m1, e1, G1, a1, v1, g1, hh1⟩ := findNode_spec h hg hh hi
  obtain ⟨m2, e2, G2, a2, v2, g2, hh2⟩ := findNode_spec v1.within g1 hh1 hj
  unfold addEdgeAt
  rw [a1, ok_bind]
  simp only
  rw [← v1.addr, a2, ok_bind]
  simp only
  rw [← v2.addr, graphAt_eq g2.cell, ok_bind, show (e2.cell G2).adj = .block e2.adjAt from rfl, matrixAt_eq g2.adj, ok_bind, show (e2.cell G2).size = G2.size from rfl]
  obtain ⟨G3, b3, hh3⟩ := Graph.setAdjm_holds hh2 hi hj
  unfold Graph.setAdjm at b3
  obtain ⟨l, c1, c2⟩ := res_bind_ok b3
  have c3 := Res.ok.inj c2
  rw [c1, ok_bind]
  obtain ⟨m4, a4, w4, b4, k4, n4⟩ := Within.write (a := e2.adjAt) (M := {e2.addr} + ({e2.varsAt} + (e2.ind.blocks + M))) (v2.within.as (by unfold GEntry.blocks; ac_rfl)) (.matrix l)
  rw [a4, ok_bind]
  have le3 : M ≤ {e2.addr} + ({e2.varsAt} + (e2.ind.blocks + M)) := ((Multiset.le_add_left _ _).trans (Multiset.le_add_left _ _)).trans (Multiset.le_add_left _ _)
  refine ⟨m4, e2, G3, rfl, (v1.trans v2).trans ⟨rfl, w4.as (by unfold GEntry.blocks; ac_rfl), k4.mono le3⟩, ?_, hh3⟩
  subst c3
  refine ⟨?_, b4, ?_, ?_⟩
  · rw [k4.same _ (by simp)]
    exact g2.cell
  · rw [k4.same _ (by simp)]
    exact g2.vars
  · rcases g2.ind with h' | ⟨d, t, h1, h2, h3⟩
    · exact Or.inl h'
    · exact Or.inr ⟨d, t, h1, h2, by rw [k4.same _ (by simp [h1, MemPtr.blocks])]; exact h3⟩

theorem addNodeAt_spec {m : GraphMemory} {M : Multiset Nat} {e : GEntry} {G : Graph} {n : Nat} {nodes : List Nat} {edges : List (Nat × Nat)} (h : m.Within (e.blocks + M)) (hg : e.Good m G)
    (hh : G.Holds n nodes edges) {v : Nat} (hv : v ∉ nodes) (hpos : 0 < v) (hroom : nodes.length < n) (he : ∀ x ∈ edges, x.1 ≠ v ∧ x.2 ≠ v) :
    ∃ (m' : GraphMemory) (e' : GEntry) (G' : Graph), m.addNodeAt (.block e.addr) v = ok (0, m') ∧ e.Moved e' m m' M ∧ e'.Good m' G' ∧ G'.Holds n (nodes ++ [v]) edges := by
  obtain ⟨G', hG, hh'⟩ := Graph.addNode_holds hh hv hpos hroom he
  have hne : ¬ G.top = G.size := by rw [hh.top, hh.size]; omega
  unfold Graph.addNode at hG
  rw [if_neg hne] at hG
  obtain ⟨vars, hvars, hG⟩ := res_bind_ok hG
  set G1 : Graph := { G with
    vars := vars
    top := G.top + 1
    minId := if v < G.minId ∨ G.minId = 0 then v else G.minId
    maxId := if v > G.maxId ∨ G.maxId = 0 then v else G.maxId
    varInd := none } with hG1
  have hh1 : G1.Holds n (nodes ++ [v]) edges := by
    simp only at hG
    split at hG
    · obtain ⟨G2, hb, hG⟩ := res_bind_ok hG
      obtain ⟨_, rfl⟩ := Prod.mk.inj (Res.ok.inj hG)
      unfold Graph.buildIndex at hb
      obtain ⟨t, _, hb⟩ := res_bind_ok hb
      have := hh'.bare
      rw [← Res.ok.inj hb] at this
      exact this
    · obtain ⟨_, rfl⟩ := Prod.mk.inj (Res.ok.inj hG)
      exact hh'
  unfold addNodeAt
  rw [graphAt_eq hg.cell, ok_bind]
  rw [show (e.cell G).top = G.top from rfl, show (e.cell G).size = G.size from rfl, if_neg hne, show (e.cell G).vars = .block e.varsAt from rfl, nodesAt_eq hg.vars, ok_bind, hvars, ok_bind]
  obtain ⟨m1, a1, w1, b1, k1, n1⟩ := Within.write (a := e.varsAt) (M := {e.addr} + ({e.adjAt} + (e.ind.blocks + M))) (h.as (by unfold GEntry.blocks; ac_rfl)) (.nodes vars)
  rw [a1, ok_bind, show (e.cell G).ind = e.ind from rfl]
  obtain ⟨m2, a2, w2, k2, n2⟩ := Within.release (M := {e.addr} + ({e.adjAt} + ({e.varsAt} + M))) hg.junk (w1.as (by ac_rfl))
  rw [a2, ok_bind]
  obtain ⟨m3, a3, w3, b3, k3, n3⟩ := Within.write w2 (.graph (GEntry.cell { e with ind := .null } G1))
  have le1 : M ≤ {e.addr} + ({e.adjAt} + (e.ind.blocks + M)) := ((Multiset.le_add_left _ _).trans (Multiset.le_add_left _ _)).trans (Multiset.le_add_left _ _)
  have le2 : M ≤ {e.addr} + ({e.adjAt} + ({e.varsAt} + M)) := ((Multiset.le_add_left _ _).trans (Multiset.le_add_left _ _)).trans (Multiset.le_add_left _ _)
  have le3 : M ≤ {e.adjAt} + ({e.varsAt} + M) := (Multiset.le_add_left _ _).trans (Multiset.le_add_left _ _)
  have mv : e.Moved { e with ind := .null } m m3 M := ⟨rfl, w3.as (by simp only [GEntry.blocks, MemPtr.blocks, add_zero]; ac_rfl), (k1.mono le1).trans ((k2.mono le2).trans (k3.mono le3))⟩
  have g3 : GEntry.Good { e with ind := .null } m3 G1 := by
    refine ⟨b3, ?_, ?_, Or.inl ⟨rfl, rfl⟩⟩
    · show m3.blocks e.adjAt = _
      rw [k3.same _ (by simp), k2.same _ (by simp), k1.same _ (by simp)]
      exact hg.adj
    · show m3.blocks e.varsAt = _
      rw [k3.same _ (by simp), k2.same _ (by simp)]
      exact b1
  have a3' := a3
  unfold GEntry.cell at a3'
  simp only [hG1] at a3'
  simp only [GEntry.cell]
  erw [a3', ok_bind]
  split
  · obtain ⟨b, m4, e4, G4, a4, mv4, g4, hh4, _⟩ := buildTable_spec mv.within g3 hh1
    rw [show m3.buildTable (.block e.addr) = _ from a4, ok_bind]
    exact ⟨m4, e4, G4, rfl, mv.trans mv4, g4, hh4⟩
  · exact ⟨m3, _, G1, rfl, mv, g3, hh1⟩

theorem changedCopy_spec {f : Graph → Res Graph} {m : GraphMemory} {M : Multiset Nat} {e : GEntry} {G G' : Graph} (h : m.Within (e.blocks + M)) (hg : e.Good m G)
    (hf : f G.bare = ok G') (hs : Graph.Same G.bare G') :
    (∃ m', changedCopy f m (.block e.addr) = ok (.null, m') ∧ m'.Within (e.blocks + M) ∧ m.Keeps m' (e.blocks + M) ∧ ∃ j, j < 3 ∧ m.fails (m.next + j) = true) ∨
    (∃ (m' : GraphMemory) (e' : GEntry), changedCopy f m (.block e.addr) = ok (.block e'.addr, m') ∧ e'.ind = .null ∧ m'.Within (e'.blocks + (e.blocks + M)) ∧ m.Keeps m' (e.blocks + M) ∧
      e'.Good m' G' ∧ m'.next = m.next + 3 ∧ ∀ j, j < 3 → m.fails (m.next + j) = false) := by
  unfold changedCopy
  rw [show MemPtr.isNull (.block e.addr) = ok false from rfl, ok_bind]
  simp only [Bool.false_eq_true, if_false]
  rcases copyGraph_spec h hg with ⟨m1, a1, w1, k1, hj⟩ | ⟨m1, e', a1, i1, w1, k1, g1, n1, hj⟩
  · refine Or.inl ⟨m1, ?_, w1, k1, hj⟩
    rw [a1, ok_bind]
    rfl
  refine Or.inr ?_
  rw [a1, ok_bind]
  simp only [beq_iff_eq, reduceCtorEq, if_false]
  have hg1 : e.Good m1 G := hg.keep (k1.same.mono (Multiset.le_add_right _ _))
  rw [hg1.value, ok_bind, hf, ok_bind, graphAt_eq g1.cell, ok_bind, show (e'.cell G.bare).adj = .block e'.adjAt from rfl]
  obtain ⟨m2, a2, w2, b2, k2, n2⟩ := Within.write (a := e'.adjAt) (M := {e'.addr} + ({e'.varsAt} + (e'.ind.blocks + (e.blocks + M)))) (w1.as (by unfold GEntry.blocks; ac_rfl)) (.matrix G'.adj)
  rw [a2, ok_bind]
  refine ⟨m2, e', rfl, i1, w2.as (by unfold GEntry.blocks; ac_rfl), k1.trans (k2.mono (((Multiset.le_add_left _ _).trans (Multiset.le_add_left _ _)).trans (Multiset.le_add_left _ _))),
    ⟨?_, b2, ?_, Or.inl ⟨i1, hs.ind⟩⟩, by omega, hj⟩
  · rw [k2.same _ (by simp), g1.cell]
    unfold GEntry.cell
    rw [hs.size, hs.top, hs.minId, hs.maxId]
  · rw [k2.same _ (by simp), g1.vars, hs.vars]

/-! ## What the three changes do -/

theorem moralise_holds {G : Graph} {n : Nat} {nodes : List Nat} {edges : List (Nat × Nat)} (h : G.Holds n nodes edges) :
    ∃ G', G.bare.moralise = ok G' ∧ Graph.Same G.bare G' ∧ G'.Holds n nodes (moralEdges nodes edges) := by
  have hb := h.bare
  obtain ⟨G', h1, h2, h3⟩ := Graph.moralise_eq hb.wf
  refine ⟨G', h1, h2, hb.same h2 ?_⟩
  intro i j hi hj
  rw [h3 i j (by rw [hb.size]; exact hi) (by rw [hb.size]; exact hj), hb.val i j hi hj, hb.size]
  unfold moralEdges
  constructor
  · rintro (⟨u, v, a, b, c⟩ | ⟨hij, k, hk, ha, hb'⟩)
    · exact ⟨u, v, a, b, by simp [c]⟩
    · obtain ⟨u, c, a1, a2, a3⟩ := (hb.val i k hi hk).mp ha
      obtain ⟨v, c', b1, b2, b3⟩ := (hb.val j k hj hk).mp hb'
      rw [a2] at b2
      cases b2
      refine ⟨u, v, a1, b1, ?_⟩
      rw [List.mem_append, List.mem_filter]
      refine Or.inr ⟨List.mem_product.mpr ⟨List.mem_of_getElem? a1, List.mem_of_getElem? b1⟩, ?_⟩
      simp only [decide_eq_true_eq]
      refine ⟨?_, c, List.mem_of_getElem? a2, a3, b3⟩
      intro huv
      subst huv
      obtain ⟨x1, y1⟩ := List.getElem?_eq_some_iff.mp a1
      obtain ⟨x2, y2⟩ := List.getElem?_eq_some_iff.mp b1
      exact hij (h.nodup.getElem_inj_iff.mp (y1.trans y2.symm))
  · rintro ⟨u, v, a, b, c⟩
    rw [List.mem_append, List.mem_filter] at c
    rcases c with c | ⟨_, c⟩
    · exact Or.inl ⟨u, v, a, b, c⟩
    · simp only [decide_eq_true_eq] at c
      obtain ⟨huv, x, hx, c1, c2⟩ := c
      obtain ⟨k, hk⟩ := List.getElem?_of_mem hx
      have hkn : k < n := lt_of_lt_of_le (List.getElem?_eq_some_iff.mp hk).1 h.le
      refine Or.inr ⟨?_, k, hkn, (hb.val i k hi hkn).mpr ⟨u, x, a, hk, c1⟩, (hb.val j k hj hkn).mpr ⟨v, x, b, hk, c2⟩⟩
      rintro rfl
      rw [a] at b
      exact huv (Option.some.inj b)

theorem join_holds (old out : Nat → Bool) {G : Graph} {n : Nat} {nodes : List Nat} {edges : List (Nat × Nat)} (h : G.Holds n nodes edges) (hf : nodes.length = n) :
    ∃ G', Graph.addInterfaceEdges old out G.bare = ok G' ∧ Graph.Same G.bare G' ∧ G'.Holds n nodes (joinedEdges old out nodes edges) := by
  have hb := h.bare
  obtain ⟨G', h1, h2, h3⟩ := Graph.addInterfaceEdges_eq (oldOut := old) (out := out) hb.wf (nodes := nodes) (by rw [hb.vars, hf]; simp)
  refine ⟨G', h1, h2, hb.same h2 ?_⟩
  intro i j hi hj
  rw [h3 i j (by rw [hb.size]; exact hi) (by rw [hb.size]; exact hj), hb.val i j hi hj]
  unfold joinedEdges
  constructor
  · rintro (⟨u, v, a, b, c⟩ | ⟨hij, u, v, a, b, c⟩)
    · exact ⟨u, v, a, b, by simp [c]⟩
    · refine ⟨u, v, a, b, ?_⟩
      rw [List.mem_append, List.mem_filter]
      refine Or.inr ⟨List.mem_product.mpr ⟨List.mem_of_getElem? a, List.mem_of_getElem? b⟩, ?_⟩
      simp only [decide_eq_true_eq]
      refine ⟨?_, by simpa [Graph.Ifc] using c⟩
      intro huv
      subst huv
      obtain ⟨x1, y1⟩ := List.getElem?_eq_some_iff.mp a
      obtain ⟨x2, y2⟩ := List.getElem?_eq_some_iff.mp b
      exact hij (h.nodup.getElem_inj_iff.mp (y1.trans y2.symm))
  · rintro ⟨u, v, a, b, c⟩
    rw [List.mem_append, List.mem_filter] at c
    rcases c with c | ⟨_, c⟩
    · exact Or.inl ⟨u, v, a, b, c⟩
    · simp only [decide_eq_true_eq] at c
      refine Or.inr ⟨?_, u, v, a, b, by simpa [Graph.Ifc] using c.2⟩
      rintro rfl
      rw [a] at b
      exact c.1 (Option.some.inj b)

theorem undirect_holds {G : Graph} {n : Nat} {nodes : List Nat} {edges : List (Nat × Nat)} (h : G.Holds n nodes edges) :
    ∃ G', G.bare.makeUndirected = ok G' ∧ Graph.Same G.bare G' ∧ G'.Holds n nodes (bothEdges edges) := by
  have hb := h.bare
  obtain ⟨G', h1, h2, h3⟩ := Graph.makeUndirected_eq hb.wf
  refine ⟨G', h1, h2, hb.same h2 ?_⟩
  intro i j hi hj
  rw [h3 i j (by rw [hb.size]; exact hi) (by rw [hb.size]; exact hj), Bool.or_eq_true, hb.val i j hi hj, hb.val j i hj hi]
  unfold bothEdges
  constructor
  · rintro (⟨u, v, a, b, c⟩ | ⟨u, v, a, b, c⟩)
    · exact ⟨u, v, a, b, by simp [c]⟩
    · exact ⟨v, u, b, a, List.mem_append_right _ (List.mem_map.mpr ⟨(u, v), c, rfl⟩)⟩
  · rintro ⟨u, v, a, b, c⟩
    rcases List.mem_append.mp c with c | c
    · exact Or.inl ⟨u, v, a, b, c⟩
    · obtain ⟨⟨x, y⟩, c1, c2⟩ := List.mem_map.mp c
      cases c2
      exact Or.inr ⟨_, _, b, a, c1⟩

end Nip
