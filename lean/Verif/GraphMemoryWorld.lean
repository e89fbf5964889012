import Verif.GraphMemoryChange

/-!
# Lemmas about histories of calls on graphs
-/

namespace Nip

open Res Spec Store

/-- what the program has got: a pointer and the blocks that belong to it -/
structure GObject where
  ptr : MemPtr
  blocks : Multiset Nat

/-- both ends of every edge are nodes -/
def EdgesAmong (nodes : List Nat) (edges : List (Nat × Nat)) : Prop := ∀ x ∈ edges, x.1 ∈ nodes ∧ x.2 ∈ nodes

/-- It is what the ledger says. -/
def GObject.Good (o : GObject) (m : GraphMemory) : GraphRecord → Prop
  | .freed => o.blocks = 0
  | .graph n nodes edges => EdgesAmong nodes edges ∧ ((o.ptr = .null ∧ o.blocks = 0 ∧ ∃ k, m.fails k = true) ∨
      ∃ (e : GEntry) (G : Graph), o.ptr = .block e.addr ∧ o.blocks = e.blocks ∧ e.Good m G ∧ G.Holds n nodes edges)

theorem GObject.Good.keep {o : GObject} {m m' : GraphMemory} {r : GraphRecord} (h : o.Good m r) (hs : m.SameOn m' o.blocks) (hf : m'.fails = m.fails) : o.Good m' r := by
  cases r with
  | freed => exact h
  | graph n nodes edges =>
    obtain ⟨h0, ⟨h1, h2, h3⟩ | ⟨e, G, h1, h2, h3, h4⟩⟩ := h
    · exact ⟨h0, Or.inl ⟨h1, h2, by rw [hf]; exact h3⟩⟩
    · exact ⟨h0, Or.inr ⟨e, G, h1, h2, h3.keep (h2 ▸ hs), h4⟩⟩

/-- the blocks of all that the program has got -/
def graphsBlocks (O : List GObject) : Multiset Nat := (O.map GObject.blocks).sum

theorem graphsBlocks_append (O O' : List GObject) : graphsBlocks (O ++ O') = graphsBlocks O + graphsBlocks O' := by simp [graphsBlocks]

theorem graphsBlocks_cons (o : GObject) (O : List GObject) : graphsBlocks (o :: O) = o.blocks + graphsBlocks O := by simp [graphsBlocks]

/-- All of it is what the ledger says. -/
def GraphsGood (m : GraphMemory) (O : List GObject) (l : GraphLedger) : Prop := List.Forall₂ (fun o r => o.Good m r) O l

theorem GraphsGood.keep {m m' : GraphMemory} {O : List GObject} {l : GraphLedger} (h : GraphsGood m O l) (hs : m.SameOn m' (graphsBlocks O)) (hf : m'.fails = m.fails) : GraphsGood m' O l := by
  unfold GraphsGood at *
  induction h with
  | nil => exact .nil
  | @cons o r O l h1 h2 ih =>
    rw [graphsBlocks_cons] at hs
    exact .cons (h1.keep (hs.mono (Multiset.le_add_right _ _)) hf) (ih (hs.mono (Multiset.le_add_left _ _)))

theorem GraphsGood.append {m : GraphMemory} {O O' : List GObject} {l l' : GraphLedger} (h : GraphsGood m O l) (h' : GraphsGood m O' l') : GraphsGood m (O ++ O') (l ++ l') :=
  List.rel_append (R := fun (o : GObject) r => o.Good m r) h h'

theorem GraphsGood.split {m : GraphMemory} {O : List GObject} {l : GraphLedger} (h : GraphsGood m O l) {v : Nat} {r : GraphRecord} (hv : l[v]? = some r) :
    ∃ O1 o O2 l1 l2, O = O1 ++ o :: O2 ∧ l = l1 ++ r :: l2 ∧ O1.length = v ∧ l1.length = v ∧ GraphsGood m O1 l1 ∧ o.Good m r ∧ GraphsGood m O2 l2 := by
  unfold GraphsGood at *
  induction h generalizing v with
  | nil => simp at hv
  | @cons o r' O l h1 h2 ih =>
    cases v with
    | zero =>
      rw [List.getElem?_cons_zero] at hv
      cases hv
      exact ⟨[], o, O, [], l, rfl, rfl, rfl, rfl, .nil, h1, h2⟩
    | succ v =>
      rw [List.getElem?_cons_succ] at hv
      obtain ⟨O1, o', O2, l1, l2, rfl, rfl, e3, e4, g1, g2, g3⟩ := ih hv
      exact ⟨o :: O1, o', O2, r' :: l1, l2, rfl, rfl, by simp [e3], by simp [e4], .cons h1 g1, g2, g3⟩

theorem modify_graph {α : Type} (l1 l2 : List α) (r : α) (f : α → α) {v : Nat} (hv : l1.length = v) : (l1 ++ r :: l2).modify v f = l1 ++ f r :: l2 := by
  subst hv
  induction l1 with
  | nil => rfl
  | cons a l1 ih =>
    rw [List.cons_append, List.length_cons, List.modify_succ_cons, ih]
    rfl

/-- What is true after every call. -/
structure GraphWorld.Inv (w : GraphWorld) (F : Nat → Bool) (l : GraphLedger) (O : List GObject) : Prop where
  within : w.mem.Within (graphsBlocks O)
  handles : w.handles = O.map GObject.ptr
  good : GraphsGood w.mem O l
  oracle : w.mem.fails = F

variable {F : Nat → Bool}

theorem GraphWorld.inv_start (fails : Nat → Bool) : (GraphWorld.start fails).Inv fails [] [] :=
  ⟨⟨Multiset.nodup_zero, fun b => by simp [GraphWorld.start, Store.empty, graphsBlocks], fun b hb => by simp [graphsBlocks] at hb⟩, rfl, .nil, rfl⟩

theorem rd_graphs {O1 O2 : List GObject} {o : GObject} {v : Nat} (hv : O1.length = v) : rd ((O1 ++ o :: O2).map GObject.ptr) v = ok o.ptr := by
  subst hv
  rw [rd_lt (by simp)]
  simp

/-- One more graph. -/
theorem GraphWorld.Inv.more {w : GraphWorld} {l : GraphLedger} {O : List GObject} (h : w.Inv F l O) {m' : GraphMemory} {o : GObject} {r : GraphRecord} {p : MemPtr} (hp : o.ptr = p)
    (hw : m'.Within (o.blocks + graphsBlocks O)) (hk : w.mem.Keeps m' (graphsBlocks O)) (hg : o.Good m' r) :
    GraphWorld.Inv { w with mem := m', handles := w.handles ++ [p] } F (l ++ [r]) (O ++ [o]) := by
  refine ⟨hw.as ?_, by simp [h.handles, hp], (h.good.keep hk.same hk.fails).append (.cons hg .nil), hk.fails.trans h.oracle⟩
  rw [graphsBlocks_append, graphsBlocks_cons]
  simp only [graphsBlocks, List.map_nil, List.sum_nil, add_zero]
  rw [add_comm]

/-- One graph is changed. -/
theorem GraphWorld.Inv.alter {w : GraphWorld} {O1 O2 : List GObject} {o o' : GObject} {l1 l2 : GraphLedger} {r r' : GraphRecord} (h : w.Inv F (l1 ++ r :: l2) (O1 ++ o :: O2))
    (h1 : GraphsGood w.mem O1 l1) (h2 : GraphsGood w.mem O2 l2) {m' : GraphMemory} (hp : o'.ptr = o.ptr) (hw : m'.Within (o'.blocks + (graphsBlocks O1 + graphsBlocks O2)))
    (hk : w.mem.Keeps m' (graphsBlocks O1 + graphsBlocks O2)) (hg : o'.Good m' r') (a : List (Option Nat)) :
    GraphWorld.Inv { mem := m', handles := w.handles, answers := a } F (l1 ++ r' :: l2) (O1 ++ o' :: O2) := by
  refine ⟨hw.as ?_, by simp [h.handles, hp], ?_, hk.fails.trans h.oracle⟩
  · rw [graphsBlocks_append, graphsBlocks_cons]
    ac_rfl
  · exact (h1.keep (hk.same.mono (Multiset.le_add_right _ _)) hk.fails).append (.cons hg (h2.keep (hk.same.mono (Multiset.le_add_left _ _)) hk.fails))

theorem edges_moral {nodes : List Nat} {edges : List (Nat × Nat)} (h : EdgesAmong nodes edges) : EdgesAmong nodes (moralEdges nodes edges) := by
  intro x hx
  rcases List.mem_append.mp hx with hx | hx
  · exact h x hx
  · exact List.mem_product.mp (List.mem_filter.mp hx).1

theorem edges_joined (old out : Nat → Bool) {nodes : List Nat} {edges : List (Nat × Nat)} (h : EdgesAmong nodes edges) : EdgesAmong nodes (joinedEdges old out nodes edges) := by
  intro x hx
  rcases List.mem_append.mp hx with hx | hx
  · exact h x hx
  · exact List.mem_product.mp (List.mem_filter.mp hx).1

theorem edges_both {nodes : List Nat} {edges : List (Nat × Nat)} (h : EdgesAmong nodes edges) : EdgesAmong nodes (bothEdges edges) := by
  intro x hx
  rcases List.mem_append.mp hx with hx | hx
  · exact h x hx
  · obtain ⟨y, hy, rfl⟩ := List.mem_map.mp hx
    exact ⟨(h y hy).2, (h y hy).1⟩

theorem derive_eq {l : GraphLedger} {g n : Nat} {nodes : List Nat} {edges : List (Nat × Nat)} (h : l[g]? = some (.graph n nodes edges)) (f : List Nat → List (Nat × Nat) → List (Nat × Nat)) :
    l.derive g f = l ++ [.graph n nodes (f nodes edges)] := by
  unfold GraphLedger.derive
  rw [h]

/-- A changed copy of a graph, or NULL. -/
theorem GraphWorld.Inv.copied {w : GraphWorld} {l : GraphLedger} {O : List GObject} (h : w.Inv F l O) {g n : Nat} {nodes : List Nat} {edges edges' : List (Nat × Nat)}
    (hl : l[g]? = some (.graph n nodes edges)) (he : EdgesAmong nodes edges → EdgesAmong nodes edges') (act : GraphMemory → MemPtr → Res (MemPtr × GraphMemory))
    (hnull : ∀ m, act m .null = ok (.null, m))
    (hact : ∀ (m : GraphMemory) (M : Multiset Nat) (e : GEntry) (G : Graph), m.Within (e.blocks + M) → e.Good m G → G.Holds n nodes edges →
      (∃ m', act m (.block e.addr) = ok (.null, m') ∧ m'.Within (e.blocks + M) ∧ m.Keeps m' (e.blocks + M) ∧ ∃ j, j < 3 ∧ m.fails (m.next + j) = true) ∨
      (∃ (m' : GraphMemory) (e' : GEntry) (G' : Graph), act m (.block e.addr) = ok (.block e'.addr, m') ∧ m'.Within (e'.blocks + (e.blocks + M)) ∧ m.Keeps m' (e.blocks + M) ∧
        e'.Good m' G' ∧ G'.Holds n nodes edges')) :
    ∃ (p q : MemPtr) (m' : GraphMemory) (O' : List GObject), rd w.handles g = ok p ∧ act w.mem p = ok (q, m') ∧ GraphWorld.Inv { w with mem := m', handles := w.handles ++ [q] } F (l ++ [.graph n nodes edges']) O' := by
  obtain ⟨O1, o, O2, l1, l2, rfl, rfl, e3, e4, g1, g2, g3⟩ := h.good.split hl
  have hrd : rd w.handles g = ok o.ptr := by rw [h.handles]; exact rd_graphs e3
  obtain ⟨ha, ⟨h1, h2, h3⟩ | ⟨e, G, h1, h2, h3, h4⟩⟩ := g2
  · refine ⟨_, .null, w.mem, _, hrd, by rw [h1]; exact hnull _, h.more (o := ⟨.null, 0⟩) rfl (h.within.as (by simp)) (Keeps.refl _ _) ⟨he ha, Or.inl ⟨rfl, rfl, h3⟩⟩⟩
  · have hb : graphsBlocks (O1 ++ o :: O2) = e.blocks + (graphsBlocks O1 + graphsBlocks O2) := by rw [graphsBlocks_append, graphsBlocks_cons, h2]; ac_rfl
    rcases hact w.mem _ e G (h.within.as hb) h3 h4 with ⟨m', a1, w1, k1, j, _, hj⟩ | ⟨m', e', G', a1, w1, k1, gd, hd⟩
    · refine ⟨_, .null, m', _, hrd, by rw [h1]; exact a1, h.more (o := ⟨.null, 0⟩) rfl (w1.as (by rw [hb]; simp)) (by rw [hb]; exact k1) ⟨he ha, Or.inl ⟨rfl, rfl, w.mem.next + j, by rw [k1.fails]; exact hj⟩⟩⟩
    · exact ⟨_, .block e'.addr, m', _, hrd, by rw [h1]; exact a1, h.more (o := ⟨.block e'.addr, e'.blocks⟩) rfl (by rw [hb]; exact w1) (by rw [hb]; exact k1)
        ⟨he ha, Or.inr ⟨e', G', rfl, rfl, gd, hd⟩⟩⟩

/-- the answer to a search in a graph: -1 if there is no graph -/
def answerOf (p : MemPtr) (i : Nat) : Option Nat := if p = .null then none else some i

/-- A search in a graph that is there gives the place of the node. -/
theorem GraphWorld.Inv.find {old out : Nat → Bool} {w : GraphWorld} {l : GraphLedger} {O : List GObject} (h : w.Inv F l O) {g n i v : Nat} {nodes : List Nat} {edges : List (Nat × Nat)}
    (hl : l[g]? = some (.graph n nodes edges)) (hv : nodes[i]? = some v) :
    ∃ (p : MemPtr) (w' : GraphWorld) (O' : List GObject), w.handles[g]? = some p ∧ w.step old out (.find g v) = ok w' ∧ w'.Inv F l O' ∧ w'.answers = w.answers ++ [answerOf p i] ∧ w'.handles = w.handles := by
  obtain ⟨O1, o, O2, l1, l2, rfl, rfl, e3, e4, g1, g2, g3⟩ := h.good.split hl
  have hrd : rd w.handles g = ok o.ptr := by rw [h.handles]; exact rd_graphs e3
  unfold GraphWorld.step
  simp only
  rw [hrd, ok_bind]
  have hrd' := rd_eq_ok.mp hrd
  obtain ⟨ha, ⟨h1, h2, h3⟩ | ⟨e, G, h1, h2, h3, h4⟩⟩ := g2
  · rw [h1] at hrd' ⊢
    exact ⟨_, _, _, hrd', rfl, ⟨h.within, h.handles, h.good, h.oracle⟩, rfl, rfl⟩
  · have hb : graphsBlocks (O1 ++ o :: O2) = e.blocks + (graphsBlocks O1 + graphsBlocks O2) := by rw [graphsBlocks_append, graphsBlocks_cons, h2]; ac_rfl
    obtain ⟨m', e', G', a1, mv, gd, hd⟩ := findNode_spec (h.within.as hb) h3 h4 hv
    rw [h1] at hrd' ⊢
    rw [a1, ok_bind]
    refine ⟨_, _, _, hrd', rfl, h.alter (o' := ⟨.block e'.addr, e'.blocks⟩) (r' := .graph n nodes edges) g1 g3 (by rw [h1, mv.addr]) mv.within mv.keeps ⟨ha, Or.inr ⟨e', G', rfl, rfl, gd, hd⟩⟩ _, ?_, rfl⟩
    simp [answerOf]

theorem GraphWorld.Inv.step {old out : Nat → Bool} {w : GraphWorld} {l : GraphLedger} {O : List GObject} (h : w.Inv F l O) {a : GraphCall} (ha : a.Valid l) :
    ∃ (w' : GraphWorld) (O' : List GObject), w.step old out a = ok w' ∧ w'.Inv F (a.on old out l) O' := by
  cases a with
  | new n =>
    unfold GraphWorld.step
    simp only
    rcases newGraph_spec h.within n with ⟨m', a1, w1, k1, j, _, hj⟩ | ⟨m', e, a1, _, w1, k1, gd, _⟩
    · rw [a1, ok_bind]
      exact ⟨_, _, rfl, h.more (o := ⟨.null, 0⟩) rfl (w1.as (by simp)) k1 ⟨fun x hx => by simp at hx, Or.inl ⟨rfl, rfl, w.mem.next + j, by rw [k1.fails]; exact hj⟩⟩⟩
    · rw [a1, ok_bind]
      exact ⟨_, _, rfl, h.more (o := ⟨.block e.addr, e.blocks⟩) rfl w1 k1 ⟨fun x hx => by simp at hx, Or.inr ⟨e, _, rfl, rfl, gd, Graph.Holds.new n⟩⟩⟩
  | copy g =>
    obtain ⟨n, nodes, edges, hl⟩ := ha
    obtain ⟨p, q, m', O', a1, a2, a3⟩ := h.copied hl (edges' := edges) id (fun m p => if p == .null then ok (.null, m) else m.copyGraph p) (fun m => rfl) (by
      intro m M e G hw hg hh
      simp only [beq_iff_eq, reduceCtorEq, if_false]
      rcases copyGraph_spec hw hg with h | ⟨m', e', a1, _, w1, k1, gd, _⟩
      · exact Or.inl h
      · exact Or.inr ⟨m', e', _, a1, w1, k1, gd, hh.bare⟩)
    refine ⟨_, O', ?_, by rw [show GraphCall.on old out l (.copy g) = _ from derive_eq hl _]; exact a3⟩
    unfold GraphWorld.step
    simp only at a2 ⊢
    rw [a1, ok_bind]
    split at a2
    · rename_i hc
      obtain ⟨rfl, rfl⟩ := Prod.mk.inj (Res.ok.inj a2)
      rw [if_pos hc, ok_bind]
    · rename_i hc
      rw [if_neg hc, a2, ok_bind]
  | node g v =>
    obtain ⟨n, nodes, edges, hl, hpos, hv, hroom⟩ := ha
    obtain ⟨O1, o, O2, l1, l2, rfl, rfl, e3, e4, g1, g2, g3⟩ := h.good.split hl
    have hrd : rd w.handles g = ok o.ptr := by rw [h.handles]; exact rd_graphs e3
    unfold GraphWorld.step GraphCall.on
    simp only
    rw [hrd, ok_bind, modify_graph _ _ _ _ e4]
    obtain ⟨ha, ⟨h1, h2, h3⟩ | ⟨e, G, h1, h2, h3, h4⟩⟩ := g2
    · rw [h1]
      refine ⟨w, _, rfl, h.alter (r' := .graph n (nodes ++ [v]) edges) (o' := o) g1 g3 rfl (h.within.as (by rw [graphsBlocks_append, graphsBlocks_cons]; ac_rfl)) (Keeps.refl _ _) ⟨?_, Or.inl ⟨h1, h2, h3⟩⟩ w.answers⟩
      intro x hx
      exact ⟨List.mem_append_left _ (ha x hx).1, List.mem_append_left _ (ha x hx).2⟩
    · have hb : graphsBlocks (O1 ++ o :: O2) = e.blocks + (graphsBlocks O1 + graphsBlocks O2) := by rw [graphsBlocks_append, graphsBlocks_cons, h2]; ac_rfl
      obtain ⟨m', e', G', a1, mv, gd, hd⟩ := addNodeAt_spec (h.within.as hb) h3 h4 hv hpos hroom (fun x hx => ⟨fun hc => hv (hc ▸ (ha x hx).1), fun hc => hv (hc ▸ (ha x hx).2)⟩)
      rw [h1]
      simp only [beq_iff_eq, reduceCtorEq, if_false]
      rw [a1, ok_bind]
      refine ⟨_, _, rfl, h.alter (r' := .graph n (nodes ++ [v]) edges) (o' := ⟨.block e'.addr, e'.blocks⟩) g1 g3 (by rw [h1, mv.addr]) mv.within mv.keeps ⟨?_, Or.inr ⟨e', G', rfl, rfl, gd, hd⟩⟩ _⟩
      intro x hx
      exact ⟨List.mem_append_left _ (ha x hx).1, List.mem_append_left _ (ha x hx).2⟩
  | edge g u v =>
    obtain ⟨n, nodes, edges, hl, hu, hv⟩ := ha
    obtain ⟨O1, o, O2, l1, l2, rfl, rfl, e3, e4, g1, g2, g3⟩ := h.good.split hl
    have hrd : rd w.handles g = ok o.ptr := by rw [h.handles]; exact rd_graphs e3
    unfold GraphWorld.step GraphCall.on
    simp only
    rw [hrd, ok_bind, modify_graph _ _ _ _ e4]
    have hx : EdgesAmong nodes edges → EdgesAmong nodes (edges ++ [(u, v)]) := by
      intro ha x hx
      rcases List.mem_append.mp hx with hx | hx
      · exact ha x hx
      · rw [List.mem_singleton] at hx
        subst hx
        exact ⟨hu, hv⟩
    obtain ⟨ha, ⟨h1, h2, h3⟩ | ⟨e, G, h1, h2, h3, h4⟩⟩ := g2
    · rw [h1]
      exact ⟨w, _, rfl, h.alter (r' := .graph n nodes (edges ++ [(u, v)])) (o' := o) g1 g3 rfl (h.within.as (by rw [graphsBlocks_append, graphsBlocks_cons]; ac_rfl)) (Keeps.refl _ _) ⟨hx ha, Or.inl ⟨h1, h2, h3⟩⟩ w.answers⟩
    · have hb : graphsBlocks (O1 ++ o :: O2) = e.blocks + (graphsBlocks O1 + graphsBlocks O2) := by rw [graphsBlocks_append, graphsBlocks_cons, h2]; ac_rfl
      obtain ⟨m', e', G', a1, mv, gd, hd⟩ := addEdgeAt_spec (h.within.as hb) h3 h4 hu hv
      rw [h1]
      simp only [beq_iff_eq, reduceCtorEq, if_false]
      rw [a1, ok_bind]
      exact ⟨_, _, rfl, h.alter (r' := .graph n nodes (edges ++ [(u, v)])) (o' := ⟨.block e'.addr, e'.blocks⟩) g1 g3 (by rw [h1, mv.addr]) mv.within mv.keeps ⟨hx ha, Or.inr ⟨e', G', rfl, rfl, gd, hd⟩⟩ _⟩
  | find g v =>
    obtain ⟨n, nodes, edges, hl, hv⟩ := ha
    obtain ⟨i, hi⟩ := List.getElem?_of_mem hv
    obtain ⟨p, w', O', _, a1, a2, _⟩ := h.find (old := old) (out := out) hl hi
    exact ⟨w', O', a1, a2⟩
  | moralise g =>
    obtain ⟨n, nodes, edges, hl⟩ := ha
    obtain ⟨p, q, m', O', a1, a2, a3⟩ := h.copied hl (edges' := moralEdges nodes edges) edges_moral Store.moralise (fun m => rfl) (by
      intro m M e G hw hg hh
      obtain ⟨G', b1, b2, b3⟩ := moralise_holds hh
      rcases changedCopy_spec (f := Graph.moralise) hw hg b1 b2 with h | ⟨m', e', a1, _, w1, k1, gd, _⟩
      · exact Or.inl h
      · exact Or.inr ⟨m', e', _, a1, w1, k1, gd, b3⟩)
    refine ⟨_, O', ?_, by rw [show GraphCall.on old out l (.moralise g) = _ from derive_eq hl _]; exact a3⟩
    unfold GraphWorld.step
    simp only
    rw [a1, ok_bind, a2, ok_bind]
  | join g =>
    obtain ⟨n, nodes, edges, hl, hfull⟩ := ha
    obtain ⟨p, q, m', O', a1, a2, a3⟩ := h.copied hl (edges' := joinedEdges old out nodes edges) (edges_joined old out) (Store.joinInterface old out) (fun m => rfl) (by
      intro m M e G hw hg hh
      obtain ⟨G', b1, b2, b3⟩ := join_holds old out hh hfull
      rcases changedCopy_spec (f := Graph.addInterfaceEdges old out) hw hg b1 b2 with h | ⟨m', e', a1, _, w1, k1, gd, _⟩
      · exact Or.inl h
      · exact Or.inr ⟨m', e', _, a1, w1, k1, gd, b3⟩)
    refine ⟨_, O', ?_, by rw [show GraphCall.on old out l (.join g) = _ from derive_eq hl _]; exact a3⟩
    unfold GraphWorld.step
    simp only
    rw [a1, ok_bind, a2, ok_bind]
  | undirect g =>
    obtain ⟨n, nodes, edges, hl⟩ := ha
    obtain ⟨p, q, m', O', a1, a2, a3⟩ := h.copied hl (edges' := bothEdges edges) edges_both Store.undirect (fun m => rfl) (by
      intro m M e G hw hg hh
      obtain ⟨G', b1, b2, b3⟩ := undirect_holds hh
      rcases changedCopy_spec (f := Graph.makeUndirected) hw hg b1 b2 with h | ⟨m', e', a1, _, w1, k1, gd, _⟩
      · exact Or.inl h
      · exact Or.inr ⟨m', e', _, a1, w1, k1, gd, b3⟩)
    refine ⟨_, O', ?_, by rw [show GraphCall.on old out l (.undirect g) = _ from derive_eq hl _]; exact a3⟩
    unfold GraphWorld.step
    simp only
    rw [a1, ok_bind, a2, ok_bind]
  | free g =>
    obtain ⟨n, nodes, edges, hl⟩ := ha
    obtain ⟨O1, o, O2, l1, l2, rfl, rfl, e3, e4, g1, g2, g3⟩ := h.good.split hl
    have hrd : rd w.handles g = ok o.ptr := by rw [h.handles]; exact rd_graphs e3
    unfold GraphWorld.step GraphCall.on
    simp only
    rw [hrd, ok_bind, modify_graph _ _ _ _ e4]
    obtain ⟨ha, ⟨h1, h2, h3⟩ | ⟨e, G, h1, h2, h3, h4⟩⟩ := g2
    · rw [h1]
      exact ⟨_, _, rfl, h.alter (r' := .freed) (o' := o) g1 g3 rfl (h.within.as (by rw [graphsBlocks_append, graphsBlocks_cons]; ac_rfl)) (Keeps.refl _ _) h2 w.answers⟩
    · have hb : graphsBlocks (O1 ++ o :: O2) = e.blocks + (graphsBlocks O1 + graphsBlocks O2) := by rw [graphsBlocks_append, graphsBlocks_cons, h2]; ac_rfl
      obtain ⟨m', a1, w1, k1, _⟩ := freeGraph_spec (h.within.as hb) h3
      rw [h1, a1, ok_bind]
      exact ⟨_, _, rfl, h.alter (r' := .freed) (o' := ⟨o.ptr, 0⟩) g1 g3 rfl (w1.as (by simp)) k1 rfl _⟩

theorem GraphWorld.Inv.run {old out : Nat → Bool} : ∀ (h : List GraphCall) {w : GraphWorld} {l : GraphLedger} {O : List GObject}, w.Inv F l O → GraphLedger.Sensible old out l h →
    ∃ (w' : GraphWorld) (O' : List GObject), w.run old out h = ok w' ∧ w'.Inv F (l.after old out h) O' := by
  intro h
  induction h with
  | nil => intro w l O hi _; exact ⟨w, O, rfl, hi⟩
  | cons a h ih =>
    intro w l O hi hs
    obtain ⟨w1, O1, a1, i1⟩ := hi.step (old := old) (out := out) hs.1
    obtain ⟨w2, O2, a2, i2⟩ := ih i1 hs.2
    exact ⟨w2, O2, by unfold GraphWorld.run; rw [a1, ok_bind]; exact a2, i2⟩

/-! ## The copies made before the triangulation -/

theorem changedCopy_null (f : Graph → Res Graph) (m : GraphMemory) : changedCopy f m .null = ok (.null, m) := rfl

theorem freeGraph_null (m : GraphMemory) : m.freeGraph .null = ok m := rfl

theorem graphAt_null (m : GraphMemory) : m.graphAt .null = ub := rfl

theorem prepareCliques_spec {old out : Nat → Bool} {m : GraphMemory} {M : Multiset Nat} {e : GEntry} {G : Graph} {n : Nat} {nodes : List Nat} {edges : List (Nat × Nat)}
    (h : m.Within (e.blocks + M)) (hg : e.Good m G) (hh : G.Holds n nodes edges) (hf : nodes.length = n) :
    ((∃ j, j < 9 ∧ m.fails (m.next + j) = true) ∧ prepareCliques old out m (.block e.addr) = ub) ∨
    ((∀ j, j < 9 → m.fails (m.next + j) = false) ∧ ∃ (m' : GraphMemory) (e' : GEntry) (G' : Graph), prepareCliques old out m (.block e.addr) = ok (.block e'.addr, m') ∧ e'.ind = .null ∧
      m'.Within (e'.blocks + (e.blocks + M)) ∧ m.Keeps m' (e.blocks + M) ∧ e'.Good m' G' ∧ G'.Holds n nodes (bothEdges (joinedEdges old out nodes (moralEdges nodes edges)))) := by
  unfold prepareCliques Store.moralise joinInterface undirect
  obtain ⟨G1, x1, y1, z1⟩ := moralise_holds hh
  rcases changedCopy_spec (f := Graph.moralise) h hg x1 y1 with ⟨m1, a1, w1, k1, j, hj, f1⟩ | ⟨m1, e1, a1, i1, w1, k1, g1, n1, f1⟩
  · refine Or.inl ⟨⟨j, by omega, f1⟩, ?_⟩
    rw [a1, ok_bind]
    simp only [changedCopy_null, ok_bind, freeGraph_null, graphAt_null]
    rfl
  obtain ⟨G2, x2, y2, z2⟩ := join_holds old out z1 hf
  rcases changedCopy_spec (f := Graph.addInterfaceEdges old out) w1 g1 x2 y2 with ⟨m2, a2, w2, k2, j, hj, f2⟩ | ⟨m2, e2, a2, i2, w2, k2, g2, n2, f2⟩
  · refine Or.inl ⟨⟨3 + j, by omega, by rw [k1.fails, n1, Nat.add_assoc] at f2; exact f2⟩, ?_⟩
    rw [a1, ok_bind]
    simp only
    rw [a2, ok_bind]
    simp only
    obtain ⟨m3, a3, _⟩ := freeGraph_spec w2 (g1.keep (k2.same.mono (Multiset.le_add_right _ _)))
    rw [a3, ok_bind]
    simp only [changedCopy_null, ok_bind, freeGraph_null, graphAt_null]
    rfl
  have g1' : e1.Good m2 G1 := g1.keep (k2.same.mono (Multiset.le_add_right _ _))
  obtain ⟨m3, a3, w3, k3, n3⟩ := freeGraph_spec (M := e2.blocks + (e.blocks + M)) (w2.as (by ac_rfl)) g1'
  have g2' : e2.Good m3 G2 := g2.keep (k3.same.mono (Multiset.le_add_right _ _))
  obtain ⟨G3, x3, y3, z3⟩ := undirect_holds z2
  have e1' : m3.fails = m.fails := by rw [k3.fails, k2.fails, k1.fails]
  rcases changedCopy_spec (f := Graph.makeUndirected) w3 g2' x3 y3 with ⟨m4, a4, w4, k4, j, hj, f4⟩ | ⟨m4, e4, a4, i4, w4, k4, g4, n4, f4⟩
  · refine Or.inl ⟨⟨6 + j, by omega, by rw [e1', n3, n2, n1] at f4; rw [show m.next + (6 + j) = m.next + 3 + 3 + j by omega]; exact f4⟩, ?_⟩
    rw [a1, ok_bind]
    simp only
    rw [a2, ok_bind]
    simp only
    rw [a3, ok_bind, a4, ok_bind]
    simp only
    obtain ⟨m5, a5, _⟩ := freeGraph_spec w4 (g2'.keep (k4.same.mono (Multiset.le_add_right _ _)))
    rw [a5, ok_bind, graphAt_null]
    rfl
  have g2'' : e2.Good m4 G2 := g2'.keep (k4.same.mono (Multiset.le_add_right _ _))
  obtain ⟨m5, a5, w5, k5, n5⟩ := freeGraph_spec (M := e4.blocks + (e.blocks + M)) (w4.as (by ac_rfl)) g2''
  have g4' : e4.Good m5 G3 := g4.keep (k5.same.mono (Multiset.le_add_right _ _))
  refine Or.inr ⟨?_, m5, e4, G3, ?_, i4, w5, ?_, g4', z3⟩
  · intro j hj
    rcases (by omega : j < 3 ∨ (3 ≤ j ∧ j < 6) ∨ (6 ≤ j ∧ j < 9)) with hj | ⟨h1, h2⟩ | ⟨h1, h2⟩
    · exact f1 j hj
    · have := f2 (j - 3) (by omega)
      rw [k1.fails, n1, show m.next + 3 + (j - 3) = m.next + j by omega] at this
      exact this
    · have := f4 (j - 6) (by omega)
      rw [e1', n3, n2, n1, show m.next + 3 + 3 + (j - 6) = m.next + j by omega] at this
      exact this
  · rw [a1, ok_bind]
    simp only
    rw [a2, ok_bind]
    simp only
    rw [a3, ok_bind, a4, ok_bind]
    simp only
    rw [a5, ok_bind, graphAt_eq g4'.cell, ok_bind]
  · have le1 : e.blocks + M ≤ e1.blocks + (e.blocks + M) := Multiset.le_add_left _ _
    have le2 : e.blocks + M ≤ e2.blocks + (e.blocks + M) := Multiset.le_add_left _ _
    have le4 : e.blocks + M ≤ e4.blocks + (e.blocks + M) := Multiset.le_add_left _ _
    exact k1.trans ((k2.mono le1).trans ((k3.mono le2).trans ((k4.mono le2).trans (k5.mono le4))))

end Nip
