import Verif.GraphMemory
import Verif.GraphLemmas
import Verif.DataMemoryLemmas

/-!
# Lemmas about the memory of graphs
-/

namespace Nip

open Res Spec

namespace Store

theorem graphAt_eq {m : GraphMemory} {a : Nat} {c : GraphCell} (h : m.blocks a = some (.graph c)) : m.graphAt (.block a) = ok c := by
  unfold graphAt Store.get
  simp only [h, ok_bind]

theorem matrixAt_eq {m : GraphMemory} {a : Nat} {c : List Bool} (h : m.blocks a = some (.matrix c)) : m.matrixAt (.block a) = ok c := by
  unfold matrixAt Store.get
  simp only [h, ok_bind]

theorem nodesAt_eq {m : GraphMemory} {a : Nat} {c : List (Option Nat)} (h : m.blocks a = some (.nodes c)) : m.nodesAt (.block a) = ok c := by
  unfold nodesAt Store.get
  simp only [h, ok_bind]

theorem tableAt_eq {m : GraphMemory} {a : Nat} {c : List Nat} (h : m.blocks a = some (.table c)) : m.tableAt (.block a) = ok c := by
  unfold tableAt Store.get
  simp only [h, ok_bind]

end Store

open Store

/-- where a graph is -/
structure GEntry where
  addr : Nat
  adjAt : Nat
  varsAt : Nat
  ind : MemPtr

/-- the blocks of a graph -/
def GEntry.blocks (e : GEntry) : Multiset Nat := {e.addr} + ({e.adjAt} + ({e.varsAt} + e.ind.blocks))

/-- what is in the first of them -/
def GEntry.cell (e : GEntry) (G : Graph) : GraphCell :=
  { size := G.size, top := G.top, minId := G.minId, maxId := G.maxId, adj := .block e.adjAt, vars := .block e.varsAt, ind := e.ind }

/-- The graph is there. -/
structure GEntry.Good (e : GEntry) (m : GraphMemory) (G : Graph) : Prop where
  cell : m.blocks e.addr = some (.graph (e.cell G))
  adj : m.blocks e.adjAt = some (.matrix G.adj)
  vars : m.blocks e.varsAt = some (.nodes G.vars)
  ind : (e.ind = .null ∧ G.varInd = none) ∨ ∃ d t, e.ind = .block d ∧ G.varInd = some t ∧ m.blocks d = some (.table t)

theorem GEntry.Good.junk {e : GEntry} {m : GraphMemory} {G : Graph} (h : e.Good m G) : e.ind ≠ .junk := by
  rcases h.ind with ⟨h, _⟩ | ⟨d, _, h, _⟩ <;> rw [h] <;> simp

theorem GEntry.Good.keep {e : GEntry} {m m' : GraphMemory} {G : Graph} (h : e.Good m G) (hs : m.SameOn m' e.blocks) : e.Good m' G := by
  have hb : ∀ b, b ∈ e.blocks → m'.blocks b = m.blocks b := hs
  unfold GEntry.blocks at hb
  refine ⟨by rw [hb _ (by simp)]; exact h.cell, by rw [hb _ (by simp)]; exact h.adj, by rw [hb _ (by simp)]; exact h.vars, ?_⟩
  rcases h.ind with h | ⟨d, t, h1, h2, h3⟩
  · exact Or.inl h
  · exact Or.inr ⟨d, t, h1, h2, by rw [hb _ (by simp [h1, MemPtr.blocks])]; exact h3⟩

/-- the graph without its table -/
def Graph.bare (G : Graph) : Graph := { G with varInd := none }

theorem GEntry.Good.value {e : GEntry} {m : GraphMemory} {G : Graph} (h : e.Good m G) : m.graphValue (.block e.addr) = ok G.bare := by
  unfold graphValue
  rw [graphAt_eq h.cell, ok_bind]
  show (m.matrixAt (.block e.adjAt) >>= _) = _
  rw [matrixAt_eq h.adj, ok_bind]
  show (m.nodesAt (.block e.varsAt) >>= _) = _
  rw [nodesAt_eq h.vars, ok_bind]
  rfl

theorem Graph.Holds.bare {G : Graph} {n : Nat} {nodes : List Nat} {edges : List (Nat × Nat)} (h : Graph.Holds G n nodes edges) : Graph.Holds G.bare n nodes edges :=
  ⟨⟨h.wf.adjLen, h.wf.varsLen⟩, h.size, h.top, h.le, h.vars, h.nodup, h.pos, h.val, h.range, h.nil, h.ext, by intro t ht; cases ht⟩

theorem newGraph_spec {m : GraphMemory} {M : Multiset Nat} (h : m.Within M) (n : Nat) :
    (∃ m', m.newGraph n = ok (.null, m') ∧ m'.Within M ∧ m.Keeps m' M ∧ ∃ j, j < 3 ∧ m.fails (m.next + j) = true) ∨
    (∃ (m' : GraphMemory) (e : GEntry), m.newGraph n = ok (.block e.addr, m') ∧ e.ind = .null ∧ m'.Within (e.blocks + M) ∧ m.Keeps m' M ∧ e.Good m' (Graph.new n) ∧ m'.next = m.next + 3 ∧
      ∀ j, j < 3 → m.fails (m.next + j) = false) := by
  unfold newGraph
  rcases h.any (.graph { size := n, top := 0, minId := 0, maxId := 0, adj := .junk, vars := .junk, ind := .junk }) with ⟨m1, a1, f1, w1, k1, n1⟩ | ⟨m1, a1, f1, w1, b1, k1, n1⟩
  · simp only [a1, beq_self_eq_true, if_true]
    exact Or.inl ⟨m1, rfl, w1, k1, 0, by omega, f1⟩
  simp only [a1, beq_iff_eq, reduceCtorEq, if_false]
  rcases w1.any (.matrix (List.replicate (n * n) false)) with ⟨m2, a2, f2, w2, k2, n2⟩ | ⟨m2, a2, f2, w2, b2, k2, n2⟩
  · simp only [a2, if_true]
    obtain ⟨m3, a3, w3, k3, _⟩ := Within.release (q := .block m.next) (by simp) w2
    rw [a3, ok_bind]
    exact Or.inl ⟨m3, rfl, w3, k1.trans ((k2.mono (Multiset.le_add_left _ _)).trans k3), 1, by omega, by rw [← k1.fails, ← n1]; exact f2⟩
  simp only [a2, reduceCtorEq, if_false]
  rcases w2.any (.nodes (List.replicate n none)) with ⟨m3, a3, f3, w3, k3, n3⟩ | ⟨m3, a3, f3, w3, b3, k3, n3⟩
  · simp only [a3, if_true]
    obtain ⟨m4, a4, w4, k4, _⟩ := Within.release (q := .block m1.next) (by simp) w3
    rw [a4, ok_bind]
    obtain ⟨m5, a5, w5, k5, _⟩ := Within.release (q := .block m.next) (by simp) w4
    rw [a5, ok_bind]
    refine Or.inl ⟨m5, rfl, w5, k1.trans (((k2.trans (k3.mono (Multiset.le_add_left _ _))).mono (Multiset.le_add_left _ _)).trans ((k4.mono (Multiset.le_add_left _ _)).trans k5)), 2, by omega, ?_⟩
    rw [← k1.fails, ← k2.fails, show m.next + 2 = m2.next by omega]
    exact f3
  simp only [a3, reduceCtorEq, if_false]
  obtain ⟨m4, a4, w4, b4, k4, n4⟩ := Within.write (a := m.next) (M := {m1.next} + ({m2.next} + M)) (w3.as (by ac_rfl))
    (.graph { size := n, top := 0, minId := 0, maxId := 0, adj := .block m1.next, vars := .block m2.next, ind := .null })
  rw [a4, ok_bind]
  refine Or.inr ⟨m4, ⟨m.next, m1.next, m2.next, .null⟩, rfl, rfl, w4.as (by simp only [GEntry.blocks, MemPtr.blocks]; rw [add_zero]; ac_rfl), ?_, ⟨b4, ?_, ?_, Or.inl ⟨rfl, rfl⟩⟩, by omega, ?_⟩
  · have hM : M ≤ {m.next} + M := Multiset.le_add_left _ _
    have hM' : {m.next} + M ≤ {m1.next} + ({m.next} + M) := Multiset.le_add_left _ _
    exact k1.trans ((k2.mono hM).trans ((k3.mono (hM.trans hM')).trans (k4.mono ((Multiset.le_add_left _ _).trans (Multiset.le_add_left _ _)))))
  · rw [k4.same _ (by simp), k3.same _ (by simp)]
    exact b2
  · rw [k4.same _ (by simp)]
    exact b3
  · intro j hj
    rcases (by omega : j = 0 ∨ j = 1 ∨ j = 2) with rfl | rfl | rfl
    · exact f1
    · rw [← k1.fails, ← n1]; exact f2
    · rw [← k1.fails, ← k2.fails, show m.next + 2 = m2.next by omega]; exact f3

theorem copyGraph_spec {m : GraphMemory} {M : Multiset Nat} {e : GEntry} {G : Graph} (h : m.Within (e.blocks + M)) (hg : e.Good m G) :
    (∃ m', m.copyGraph (.block e.addr) = ok (.null, m') ∧ m'.Within (e.blocks + M) ∧ m.Keeps m' (e.blocks + M) ∧ ∃ j, j < 3 ∧ m.fails (m.next + j) = true) ∨
    (∃ (m' : GraphMemory) (e' : GEntry), m.copyGraph (.block e.addr) = ok (.block e'.addr, m') ∧ e'.ind = .null ∧ m'.Within (e'.blocks + (e.blocks + M)) ∧ m.Keeps m' (e.blocks + M) ∧
      e'.Good m' G.bare ∧ m'.next = m.next + 3 ∧ ∀ j, j < 3 → m.fails (m.next + j) = false) := by
  unfold copyGraph
  rw [graphAt_eq hg.cell, ok_bind]
  show (∃ m', (m.newGraph G.size >>= _) = _ ∧ _) ∨ (∃ (m' : GraphMemory) (e' : GEntry), (m.newGraph G.size >>= _) = _ ∧ _)
  rcases newGraph_spec h G.size with ⟨m1, a1, w1, k1, hj⟩ | ⟨m1, e', a1, i1, w1, k1, g1, n1, hj⟩
  · refine Or.inl ⟨m1, ?_, w1, k1, hj⟩
    rw [a1, ok_bind]
    rfl
  refine Or.inr ?_
  rw [a1, ok_bind]
  simp only [beq_iff_eq, reduceCtorEq, if_false]
  rw [graphAt_eq g1.cell, ok_bind]
  have hg1 : e.Good m1 G := hg.keep (k1.same.mono (Multiset.le_add_right _ _))
  have eb : e'.blocks = {e'.addr} + ({e'.adjAt} + {e'.varsAt}) := by unfold GEntry.blocks; rw [i1]; rfl
  rw [show (e.cell G).adj = .block e.adjAt from rfl, matrixAt_eq hg1.adj, ok_bind]
  rw [show (e'.cell (Graph.new G.size)).adj = .block e'.adjAt from rfl]
  obtain ⟨m2, a2, w2, b2, k2, n2⟩ := Within.write (a := e'.adjAt) (M := {e'.addr} + ({e'.varsAt} + (e.blocks + M))) (w1.as (by rw [eb]; ac_rfl)) (.matrix G.adj)
  rw [a2, ok_bind]
  have hg2 : e.Good m2 G := hg1.keep (k2.same.mono (by rw [show {e'.addr} + ({e'.varsAt} + (e.blocks + M)) = e.blocks + ({e'.addr} + {e'.varsAt} + M) by ac_rfl]; exact Multiset.le_add_right _ _))
  rw [show (e.cell G).vars = .block e.varsAt from rfl, nodesAt_eq hg2.vars, ok_bind]
  rw [show (e'.cell (Graph.new G.size)).vars = .block e'.varsAt from rfl]
  obtain ⟨m3, a3, w3, b3, k3, n3⟩ := Within.write (a := e'.varsAt) (M := {e'.addr} + ({e'.adjAt} + (e.blocks + M))) (w2.as (by ac_rfl)) (.nodes G.vars)
  rw [a3, ok_bind]
  obtain ⟨m4, a4, w4, b4, k4, n4⟩ := Within.write (a := e'.addr) (M := {e'.adjAt} + ({e'.varsAt} + (e.blocks + M))) (w3.as (by ac_rfl)) (.graph (e'.cell G.bare))
  have a4' : m3.put (.block e'.addr) (.graph { size := (e'.cell (Graph.new G.size)).size, top := (e.cell G).top, minId := (e.cell G).minId, maxId := (e.cell G).maxId, adj := .block e'.adjAt, vars := .block e'.varsAt, ind := .null }) = ok m4 := by
    rw [← a4]
    unfold GEntry.cell
    rw [i1]
    rfl
  rw [a4', ok_bind]
  have hk : m.Keeps m4 (e.blocks + M) := by
    refine k1.trans ((k2.mono ?_).trans ((k3.mono ?_).trans (k4.mono ?_))) <;> exact (Multiset.le_add_left _ _).trans (Multiset.le_add_left _ _)
  refine ⟨m4, e', rfl, i1, w4.as (by rw [eb]; ac_rfl), hk, ⟨b4, ?_, ?_, Or.inl ⟨i1, rfl⟩⟩, by omega, hj⟩
  · rw [k4.same _ (by simp), k3.same _ (by simp)]
    exact b2
  · rw [k4.same _ (by simp)]
    exact b3

theorem freeGraph_spec {m : GraphMemory} {M : Multiset Nat} {e : GEntry} {G : Graph} (h : m.Within (e.blocks + M)) (hg : e.Good m G) :
    ∃ m', m.freeGraph (.block e.addr) = ok m' ∧ m'.Within M ∧ m.Keeps m' M ∧ m'.next = m.next := by
  unfold freeGraph
  rw [show MemPtr.isNull (.block e.addr) = ok false from rfl, ok_bind]
  simp only [Bool.false_eq_true, if_false]
  rw [graphAt_eq hg.cell, ok_bind]
  rw [show (e.cell G).adj = .block e.adjAt from rfl, show (e.cell G).vars = .block e.varsAt from rfl, show (e.cell G).ind = e.ind from rfl]
  obtain ⟨m1, a1, w1, k1, n1⟩ := Within.release (q := .block e.adjAt) (M := {e.varsAt} + (e.ind.blocks + ({e.addr} + M))) (by simp)
    (h.as (by unfold GEntry.blocks; simp only [MemPtr.blocks]; ac_rfl))
  rw [a1, ok_bind]
  obtain ⟨m2, a2, w2, k2, n2⟩ := Within.release (q := .block e.varsAt) (by simp) w1
  rw [a2, ok_bind]
  obtain ⟨m3, a3, w3, k3, n3⟩ := Within.release hg.junk w2
  rw [a3, ok_bind]
  obtain ⟨m4, a4, w4, k4, n4⟩ := Within.release (q := .block e.addr) (by simp) w3
  refine ⟨m4, a4, w4, ?_, by omega⟩
  have h1 : M ≤ {e.addr} + M := Multiset.le_add_left _ _
  have h2 : {e.addr} + M ≤ e.ind.blocks + ({e.addr} + M) := Multiset.le_add_left _ _
  have h3 : e.ind.blocks + ({e.addr} + M) ≤ {e.varsAt} + (e.ind.blocks + ({e.addr} + M)) := Multiset.le_add_left _ _
  exact (k1.mono (h1.trans (h2.trans h3))).trans ((k2.mono (h1.trans h2)).trans ((k3.mono h1).trans k4))

end Nip
