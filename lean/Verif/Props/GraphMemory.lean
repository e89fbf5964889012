import Verif.GraphMemoryWorld

/-!
# C109: the memory of graphs

`Verif/Spec/GraphMemory.lean` says which graphs there should be after a history of calls; `Verif/GraphMemory.lean` is the code.
-/

namespace Nip.Props

open Nip Res Spec

/-- In memory there is a graph with room for `n` nodes, with these nodes in this order and these edges: its structure, its array of variables and its matrix; the numbers of its nodes are in
its range; and if it has a table, the table gives the place of each node. -/
def GraphIn (m : GraphMemory) (p : MemPtr) (n : Nat) (nodes : List Nat) (edges : List (Nat × Nat)) : Prop :=
  ∃ c matrix vars, m.get p = ok (.graph c) ∧ m.get c.adj = ok (.matrix matrix) ∧ m.get c.vars = ok (.nodes vars) ∧
    c.size = n ∧ c.top = nodes.length ∧ vars = nodes.map some ++ List.replicate (n - nodes.length) none ∧ (∀ v ∈ nodes, c.minId ≤ v ∧ v ≤ c.maxId) ∧
    matrix.length = n * n ∧ (∀ i j, i < n → j < n → (matrix[i * n + j]? = some true ↔ ∃ u v, nodes[i]? = some u ∧ nodes[j]? = some v ∧ (u, v) ∈ edges)) ∧
    (c.ind = .null ∨ ∃ t, m.get c.ind = ok (.table t) ∧ ∀ i v, nodes[i]? = some v → t[v - c.minId]? = some i)

/-- the blocks that a graph uses: none if it was freed or never got, otherwise three, and one for its table -/
def blocksUsed (m : GraphMemory) (p : MemPtr) (r : GraphRecord) : Nat :=
  if r = .freed ∨ p = .null then 0
  else match m.get p with
    | ok (.graph c) => if c.ind = .null then 3 else 4
    | _ => 0

theorem get_block {m : GraphMemory} {a : Nat} {b : GraphBlock} (h : m.blocks a = some b) : m.get (.block a) = ok b := by
  unfold Store.get
  simp only [h]

theorem graph_in {m : GraphMemory} {e : GEntry} {G : Graph} {n : Nat} {nodes : List Nat} {edges : List (Nat × Nat)} (h : e.Good m G) (hh : G.Holds n nodes edges) :
    GraphIn m (.block e.addr) n nodes edges := by
  refine ⟨e.cell G, G.adj, G.vars, get_block h.cell, get_block h.adj, get_block h.vars, hh.size, hh.top, hh.vars, hh.range, by rw [hh.wf.adjLen, hh.size], ?_, ?_⟩
  · intro i j hi hj
    rw [← hh.val i j hi hj]
    have hlt : i * n + j < G.adj.length := by rw [hh.wf.adjLen, hh.size]; exact Graph.flat_lt hi hj
    unfold Graph.val
    rw [hh.size, List.getD_eq_getElem _ _ hlt, List.getElem?_eq_getElem hlt, Option.some.injEq]
  · rcases h.ind with ⟨h1, _⟩ | ⟨d, t, h1, h2, h3⟩
    · exact Or.inl h1
    · exact Or.inr ⟨t, by rw [show (e.cell G).ind = e.ind from rfl, h1]; exact get_block h3, (hh.ind t h2).2.1⟩

theorem entry_blocks {m : GraphMemory} {e : GEntry} {G : Graph} {n : Nat} {nodes : List Nat} {edges : List (Nat × Nat)} (h : e.Good m G) :
    e.blocks.card = blocksUsed m (.block e.addr) (.graph n nodes edges) := by
  unfold blocksUsed
  rw [get_block h.cell]
  simp only [reduceCtorEq, or_self, if_false]
  rw [show (e.cell G).ind = e.ind from rfl]
  unfold GEntry.blocks
  rcases h.ind with ⟨h1, _⟩ | ⟨d, t, h1, _⟩ <;> rw [h1] <;> simp [MemPtr.blocks]

theorem graphs_blocks {m : GraphMemory} {O : List GObject} {l : GraphLedger} (h : GraphsGood m O l) :
    (graphsBlocks O).card = (List.zipWith (blocksUsed m) (O.map GObject.ptr) l).sum := by
  unfold GraphsGood at h
  induction h with
  | nil => rfl
  | @cons o r O l h1 h2 ih =>
    rw [graphsBlocks_cons, Multiset.card_add, ih, List.map_cons, List.zipWith_cons_cons, List.sum_cons]
    congr 1
    cases r with
    | freed =>
      rw [show o.blocks = 0 from h1]
      simp [blocksUsed]
    | graph n nodes edges =>
      obtain ⟨_, ⟨a, b, _⟩ | ⟨e, G, a, b, c, _⟩⟩ := h1
      · rw [a, b]
        simp [blocksUsed]
      · rw [a, b]
        exact entry_blocks c

theorem graphs_all {m : GraphMemory} {O : List GObject} {l : GraphLedger} (h : GraphsGood m O l) {g n : Nat} {nodes : List Nat} {edges : List (Nat × Nat)} (hl : l[g]? = some (.graph n nodes edges)) :
    ∃ p, (O.map GObject.ptr)[g]? = some p ∧ ((p = .null ∧ ∃ k, m.fails k = true) ∨ (p ≠ .null ∧ GraphIn m p n nodes edges)) := by
  obtain ⟨O1, o, O2, l1, l2, rfl, rfl, e3, e4, g1, ⟨_, ⟨a, b, c⟩ | ⟨e, G, a, b, c, d⟩⟩, g3⟩ := h.split hl
  · exact ⟨o.ptr, rd_eq_ok.mp (rd_graphs e3), Or.inl ⟨a, c⟩⟩
  · exact ⟨o.ptr, rd_eq_ok.mp (rd_graphs e3), Or.inr ⟨by rw [a]; simp, by rw [a]; exact graph_in c d⟩⟩

/-- Any allocations fail.  After every history of calls that make sense nothing has gone wrong.  Every graph that was not freed either is NULL, and then some allocation failed, or is in memory with
exactly its nodes and edges.  The blocks in use are those of these graphs. -/
theorem C109_memory (fails old out : Nat → Bool) (calls : List GraphCall) (hs : GraphLedger.Sensible old out [] calls) :
    ∃ w, (GraphWorld.start fails).run old out calls = ok w ∧ w.handles.length = (GraphLedger.after old out [] calls).length ∧
      (∀ (g n : Nat) (nodes : List Nat) (edges : List (Nat × Nat)), (GraphLedger.after old out [] calls)[g]? = some (GraphRecord.graph n nodes edges) →
        ∃ p, w.handles[g]? = some p ∧ ((p = .null ∧ ∃ k, fails k = true) ∨ (p ≠ .null ∧ GraphIn w.mem p n nodes edges))) ∧
      w.mem.inUse = (List.zipWith (blocksUsed w.mem) w.handles (GraphLedger.after old out [] calls)).sum := by
  obtain ⟨w, O, e1, e2⟩ := (GraphWorld.inv_start fails).run (old := old) (out := out) calls hs
  refine ⟨w, e1, ?_, ?_, ?_⟩
  · rw [e2.handles, List.length_map]
    exact e2.good.length_eq
  · intro g n nodes edges hl
    rw [e2.handles, ← e2.oracle]
    exact graphs_all e2.good hl
  · rw [e2.within.count, e2.handles, graphs_blocks e2.good]

/-- If no allocation fails, every graph that was asked for and not freed is in memory. -/
theorem C109_ample (old out : Nat → Bool) (calls : List GraphCall) (hs : GraphLedger.Sensible old out [] calls) :
    ∃ w, (GraphWorld.start (fun _ => false)).run old out calls = ok w ∧
      ∀ (g n : Nat) (nodes : List Nat) (edges : List (Nat × Nat)), (GraphLedger.after old out [] calls)[g]? = some (GraphRecord.graph n nodes edges) →
        ∃ p, w.handles[g]? = some p ∧ GraphIn w.mem p n nodes edges := by
  obtain ⟨w, e1, _, e3, _⟩ := C109_memory (fun _ => false) old out calls hs
  refine ⟨w, e1, ?_⟩
  intro g n nodes edges hl
  obtain ⟨p, hp, ⟨_, k, hk⟩ | ⟨_, hi⟩⟩ := e3 g n nodes edges hl
  · cases hk
  · exact ⟨p, hp, hi⟩

/-- When all graphs have been freed, no memory is in use, whichever allocations failed. -/
theorem C109_freed (fails old out : Nat → Bool) (calls : List GraphCall) (hs : GraphLedger.Sensible old out [] calls) (hall : ∀ r ∈ GraphLedger.after old out [] calls, r = .freed) :
    ∃ w, (GraphWorld.start fails).run old out calls = ok w ∧ w.mem.inUse = 0 := by
  obtain ⟨w, e1, e2, _, e4⟩ := C109_memory fails old out calls hs
  refine ⟨w, e1, ?_⟩
  rw [e4, List.sum_eq_zero]
  intro x hx
  obtain ⟨i, hi, rfl⟩ := List.mem_iff_getElem.mp hx
  rw [List.getElem_zipWith, hall _ (List.getElem_mem _)]
  simp [blocksUsed]

/-- Any allocations fail.  After every history, a search for a node of a graph gives its place in the list of nodes, or -1 if the graph is NULL, and changes no graph. -/
theorem C109_find (fails old out : Nat → Bool) (calls : List GraphCall) (hs : GraphLedger.Sensible old out [] calls) {g n i v : Nat} {nodes : List Nat} {edges : List (Nat × Nat)}
    (hl : (GraphLedger.after old out [] calls)[g]? = some (.graph n nodes edges)) (hv : nodes[i]? = some v) :
    ∃ w w' p, (GraphWorld.start fails).run old out calls = ok w ∧ w.handles[g]? = some p ∧ w.step old out (.find g v) = ok w' ∧ w'.handles = w.handles ∧
      w'.answers = w.answers ++ [if p = .null then none else some i] ∧
      ∀ (g' n' : Nat) (nodes' : List Nat) (edges' : List (Nat × Nat)), (GraphLedger.after old out [] calls)[g']? = some (GraphRecord.graph n' nodes' edges') →
        ∃ q, w.handles[g']? = some q ∧ (q = .null ∨ GraphIn w'.mem q n' nodes' edges') := by
  obtain ⟨w, O, e1, e2⟩ := (GraphWorld.inv_start fails).run (old := old) (out := out) calls hs
  obtain ⟨p, w', O', hp, a1, a2, a3, a4⟩ := e2.find (old := old) (out := out) hl hv
  refine ⟨w, w', p, e1, hp, a1, a4, a3, ?_⟩
  intro g' n' nodes' edges' hl'
  obtain ⟨q, hq, hc⟩ := graphs_all a2.good hl'
  rw [← a2.handles, a4] at hq
  exact ⟨q, hq, hc.imp (fun h => h.1) (fun h => h.2)⟩

/-- A full graph that is in memory after a history, with all that the memory lemmas need. -/
theorem full_graph {fails old out : Nat → Bool} {calls : List GraphCall} (hs : GraphLedger.Sensible old out [] calls) {w : GraphWorld} (hw : (GraphWorld.start fails).run old out calls = ok w) {g n : Nat}
    {nodes : List Nat} {edges : List (Nat × Nat)} (hl : (GraphLedger.after old out [] calls)[g]? = some (.graph n nodes edges)) {p : MemPtr} (hp : w.handles[g]? = some p) (hn : p ≠ .null) :
    ∃ (e : GEntry) (G : Graph) (M : Multiset Nat), p = .block e.addr ∧ w.mem.Within (e.blocks + M) ∧ e.Good w.mem G ∧ G.Holds n nodes edges ∧ w.mem.fails = fails := by
  obtain ⟨w', O, e1, e2⟩ := (GraphWorld.inv_start fails).run (old := old) (out := out) calls hs
  rw [hw] at e1
  cases e1
  obtain ⟨O1, o, O2, l1, l2, rfl, el, e3, e4, g1, gd, g3⟩ := e2.good.split hl
  have ho := rd_eq_ok.mp (rd_graphs (o := o) (O2 := O2) e3)
  rw [← e2.handles, hp] at ho
  cases ho
  obtain ⟨_, ⟨a, b, c⟩ | ⟨e, G, a, b, c, d⟩⟩ := gd
  · exact absurd a hn
  · exact ⟨e, G, graphsBlocks O1 + graphsBlocks O2, a, e2.within.as (by rw [graphsBlocks_append, graphsBlocks_cons, b]; ac_rfl), c, d, e2.oracle⟩

/-- A full graph is prepared for the triangulation after any history, and there is memory for the nine blocks of the three copies.  Then the copies that are not needed have been freed: three more blocks
are in use, for the graph with moral edges, interface edges and edges in both directions; everything else is as before; and freeing that graph gives the memory from before. -/
theorem C109_cliques (fails old out : Nat → Bool) (calls : List GraphCall) (hs : GraphLedger.Sensible old out [] calls) {w : GraphWorld} (hw : (GraphWorld.start fails).run old out calls = ok w)
    {g n : Nat} {nodes : List Nat} {edges : List (Nat × Nat)} (hl : (GraphLedger.after old out [] calls)[g]? = some (.graph n nodes edges)) (hfull : nodes.length = n) {p : MemPtr}
    (hp : w.handles[g]? = some p) (hn : p ≠ .null) (hf : ∀ j < 9, fails (w.mem.next + j) = false) :
    ∃ q m' m'', Store.prepareCliques old out w.mem p = ok (q, m') ∧ m'.inUse = w.mem.inUse + 3 ∧ (∀ b x, w.mem.blocks b = some x → m'.blocks b = some x) ∧
      GraphIn m' q n nodes (bothEdges (joinedEdges old out nodes (moralEdges nodes edges))) ∧ m'.freeGraph q = ok m'' ∧ m''.blocks = w.mem.blocks := by
  obtain ⟨e, G, M, rfl, hM, hg, hh, ho⟩ := full_graph hs hw hl hp hn
  rcases prepareCliques_spec (old := old) (out := out) hM hg hh hfull with ⟨⟨j, hj, hc⟩, _⟩ | ⟨_, m', e', G', a1, i1, w1, k1, gd, hd⟩
  · rw [ho, hf j hj] at hc
    cases hc
  · obtain ⟨m'', a2, w2, k2, _⟩ := freeGraph_spec w1 gd
    refine ⟨_, m', m'', a1, ?_, ?_, graph_in gd hd, a2, (k1.trans k2).same.all hM w2⟩
    · rw [w1.count, hM.count, Multiset.card_add, Nat.add_comm]
      congr 1
      unfold GEntry.blocks
      rw [i1]
      rfl
    · intro b x hb
      rw [k1.same b ((hM.used b).mp (by rw [hb]; simp)), hb]

/-- If one of these nine allocations fails, NULL is used as a graph. -/
theorem C109_cliques_undefined (fails old out : Nat → Bool) (calls : List GraphCall) (hs : GraphLedger.Sensible old out [] calls) {w : GraphWorld} (hw : (GraphWorld.start fails).run old out calls = ok w)
    {g n : Nat} {nodes : List Nat} {edges : List (Nat × Nat)} (hl : (GraphLedger.after old out [] calls)[g]? = some (.graph n nodes edges)) (hfull : nodes.length = n) {p : MemPtr}
    (hp : w.handles[g]? = some p) (hn : p ≠ .null) {j : Nat} (hj : j < 9) (hf : fails (w.mem.next + j) = true) : Store.prepareCliques old out w.mem p = ub := by
  obtain ⟨e, G, M, rfl, hM, hg, hh, ho⟩ := full_graph hs hw hl hp hn
  rcases prepareCliques_spec (old := old) (out := out) hM hg hh hfull with ⟨_, h⟩ | ⟨hc, _⟩
  · exact h
  · have := hc j hj
    rw [ho, hf] at this
    cases this

/-! ## Examples -/

/-- a graph with three nodes, of which two have a common child; copies; searches; one graph is freed -/
def graphCalls : List GraphCall :=
  [.new 3, .node 0 4, .node 0 2, .edge 0 4 2, .copy 0, .node 0 7, .edge 0 7 2, .find 0 7, .moralise 0, .join 2, .undirect 3, .find 4 2, .free 2, .node 1 9, .edge 1 9 4]

theorem graphCalls_sensible : GraphLedger.Sensible (fun _ => false) (fun v => v == 2 || v == 7) [] graphCalls := by
  simp [graphCalls, GraphLedger.Sensible, GraphCall.Valid, GraphCall.on, GraphLedger.derive, GraphRecord.change, List.modify_cons]

theorem graphCalls_first : (GraphLedger.after (fun _ => false) (fun v => v == 2 || v == 7) [] graphCalls)[0]? = some (.graph 3 [4, 2, 7] [(4, 2), (7, 2)]) := by
  simp [graphCalls, GraphLedger.after, GraphCall.on, GraphLedger.derive, GraphRecord.change, List.modify_cons]

/-- after the sixth allocation there is no memory for two blocks -/
def sparse (k : Nat) : Bool := k == 6 || k == 7

example : ∃ w, (GraphWorld.start sparse).run (fun _ => false) (fun v => v == 2 || v == 7) graphCalls = ok w ∧
    ∃ p, w.handles[0]? = some p ∧ ((p = .null ∧ ∃ k, sparse k = true) ∨ (p ≠ .null ∧ GraphIn w.mem p 3 [4, 2, 7] [(4, 2), (7, 2)])) := by
  obtain ⟨w, h1, _, h3, _⟩ := C109_memory sparse _ _ graphCalls graphCalls_sensible
  exact ⟨w, h1, h3 0 _ _ _ graphCalls_first⟩

example : ∃ w, (GraphWorld.start (fun _ => false)).run (fun _ => false) (fun v => v == 2 || v == 7) graphCalls = ok w ∧ ∃ p, w.handles[0]? = some p ∧ GraphIn w.mem p 3 [4, 2, 7] [(4, 2), (7, 2)] := by
  obtain ⟨w, h1, h3⟩ := C109_ample _ _ graphCalls graphCalls_sensible
  exact ⟨w, h1, h3 0 _ _ _ graphCalls_first⟩

example : ∃ w, (GraphWorld.start sparse).run (fun _ => false) (fun v => v == 2 || v == 7) (graphCalls ++ [.free 0, .free 1, .free 3, .free 4]) = ok w ∧ w.mem.inUse = 0 :=
  C109_freed _ _ _ _ (by simp [graphCalls, GraphLedger.Sensible, GraphCall.Valid, GraphCall.on, GraphLedger.derive, GraphRecord.change, List.modify_cons])
    (by simp [graphCalls, GraphLedger.after, GraphCall.on, GraphLedger.derive, GraphRecord.change, List.modify_cons])

example : ∃ w w' p, (GraphWorld.start sparse).run (fun _ => false) (fun v => v == 2 || v == 7) graphCalls = ok w ∧ w.handles[0]? = some p ∧
    w.step (fun _ => false) (fun v => v == 2 || v == 7) (.find 0 7) = ok w' ∧ w'.answers = w.answers ++ [if p = .null then none else some 2] := by
  obtain ⟨w, w', p, h1, h2, h3, _, h4, _⟩ := C109_find sparse _ _ graphCalls graphCalls_sensible graphCalls_first (i := 2) rfl
  exact ⟨w, w', p, h1, h2, h3, h4⟩

/-- The first graph has its place in memory, and four blocks are in use. -/
example : ∃ w, (GraphWorld.start sparse).run (fun _ => false) (fun _ => true) [.new 2, .node 0 3, .node 0 1, .edge 0 3 1] = ok w ∧ w.handles[0]? = some (.block 0) ∧ w.mem.next = 4 ∧ w.mem.inUse = 4 :=
  ⟨_, rfl, rfl, rfl, rfl⟩

theorem smallGraph_sensible : GraphLedger.Sensible (fun _ => false) (fun _ => true) [] [.new 2, .node 0 3, .node 0 1, .edge 0 3 1] := by
  simp [GraphLedger.Sensible, GraphCall.Valid, GraphCall.on, GraphRecord.change]

example : ∃ w m', (GraphWorld.start sparse).run (fun _ => false) (fun _ => true) [.new 2, .node 0 3, .node 0 1, .edge 0 3 1] = ok w ∧ Store.prepareCliques (fun _ => false) (fun _ => true) w.mem (.block 0) = m' ∧
    m' = ub :=
  ⟨_, _, rfl, rfl, C109_cliques_undefined sparse _ _ _ smallGraph_sensible rfl (g := 0) (nodes := [3, 1]) (by rfl) rfl rfl (by simp) (j := 2) (by omega) rfl⟩

example : ∃ w q m', (GraphWorld.start (fun _ => false)).run (fun _ => false) (fun _ => true) [.new 2, .node 0 3, .node 0 1, .edge 0 3 1] = ok w ∧
    Store.prepareCliques (fun _ => false) (fun _ => true) w.mem (.block 0) = ok (q, m') ∧ m'.inUse = 7 := by
  obtain ⟨q, m', _, h1, h2, _⟩ := C109_cliques (fun _ => false) (fun _ => false) (fun _ => true) _ smallGraph_sensible rfl (g := 0) (nodes := [3, 1]) (by rfl) rfl rfl (by simp) (fun _ _ => rfl)
  exact ⟨_, q, m', rfl, h1, h2⟩

end Nip.Props
