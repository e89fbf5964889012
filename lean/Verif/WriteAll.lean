import Verif.WriteLemmas
import Verif.WriteTables

/-! # The text printed by `write_model` as a whole -/

namespace Nip

open Res Spec

set_option linter.unusedSectionVars false

variable {K : Type} [Field K] [LinearOrder K] [IsStrictOrderedRing K]

namespace Model

/-- The tables of `write_model` have the dimensions of the families and numbers between zero and one, for every valid file. -/
structure TablesIn (f : NetFile K) (tab : Nat → Potential K) : Prop where
  wf : ∀ v ∈ childrenOf f, (tab v).Wf
  card : ∀ v ∈ childrenOf f, (tab v).card = (v :: f.givens v).map f.card
  unit : ∀ v ∈ childrenOf f, ∀ a ∈ (tab v).data, 0 ≤ a ∧ a ≤ 1

theorem writtenTable_unit {f : NetFile K} (hf : f.Valid) {m : Model K} {w : World K} (h : Holds f.net m w) (hpar : ∀ v, (m.var v).parents = f.givens v)
    {v : Nat} (hv : v ∈ f.vars) :
    ∃ p m', m.writtenTable v = ok (p, m') ∧ p.Wf ∧ p.card = (v :: f.givens v).map f.card ∧ ∀ a ∈ p.data, 0 ≤ a ∧ a ≤ 1 := by
  obtain ⟨p, c, cl, e1, e2, e3, e4, e5, e6, g, e7, e8⟩ := writtenTable_eq hf h hpar hv
  refine ⟨p, _, e1, e5, e6, fun a ha => ?_⟩
  have hg : ∀ idx, InRange ((v :: f.givens v).map f.card) idx → 0 ≤ g idx := by
    intro idx hi
    obtain ⟨x, hx, _⟩ := exists_states (cell_nodup hf v) hi
    rw [← hx, e7]
    refine sumOver_nonneg (fun z => ?_) x
    have := h.sound.onneg c z
    unfold JTree.origOf at this
    rw [e3] at this
    exact this
  obtain ⟨i, hi, rfl⟩ := List.mem_iff_getElem.1 ha
  rw [← Potential.at'_digits e5 hi]
  have hd := digits_inRange e5.2 i
  generalize hdd : digits p.card i = idx at hd
  rw [e6, List.map_cons] at hd
  cases hd with
  | cons hk ht =>
    rename_i k t
    rw [e8 k t hk ht]
    have h1 : 0 ≤ g (k :: t) := hg _ (by rw [List.map_cons]; exact List.Forall₂.cons hk ht)
    have hall : ∀ i ∈ Finset.range (f.card v), 0 ≤ g (i :: t) := fun i hi => hg _ (by rw [List.map_cons]; exact List.Forall₂.cons (Finset.mem_range.1 hi) ht)
    have hle : g (k :: t) ≤ ∑ i ∈ Finset.range (f.card v), g (i :: t) := Finset.single_le_sum hall (Finset.mem_range.2 hk)
    split
    · rename_i h0
      rw [h0] at hle
      exact ⟨h1, hle.trans zero_le_one⟩
    · have hs : 0 ≤ ∑ i ∈ Finset.range (f.card v), g (i :: t) := Finset.sum_nonneg hall
      exact ⟨div_nonneg h1 hs, div_le_one_of_le₀ hle hs⟩

/-- all tables that are written -/
theorem writtenTable_any {f : NetFile K} (hf : f.Valid) {m : Model K} (h : Idle f m) :
    ∃ tab, TablesIn f tab ∧ (f.Normalised → f.Acyclic → TablesOf f tab) ∧ ∀ v ∈ childrenOf f, ∀ m', Idle f m' → Same m m' → m'.tree = m.tree →
      ∃ m2, m'.writtenTable v = ok (tab v, m2) ∧ Idle f m2 ∧ Same m m2 ∧ m2.tree = m.tree := by
  obtain ⟨tab, htab⟩ : ∃ tab : Nat → Potential K, ∀ v, tab v = match m.writtenTable v with | ok (p, _) => p | ub => ⟨[], []⟩ := ⟨fun v => _, fun v => rfl⟩
  have hmem : ∀ v ∈ childrenOf f, v ∈ f.vars := fun v hv => (List.mem_filter.1 hv).1
  have key : ∀ v ∈ childrenOf f, ∃ m', m.writtenTable v = ok (tab v, m') ∧ (tab v).Wf ∧ (tab v).card = (v :: f.givens v).map f.card ∧ ∀ a ∈ (tab v).data, 0 ≤ a ∧ a ≤ 1 := by
    intro v hv
    obtain ⟨p, m', e1, e2, e3, e4⟩ := writtenTable_unit hf h.holds h.parents (hmem v hv)
    have : tab v = p := by rw [htab, e1]
    rw [this]
    exact ⟨m', e1, e2, e3, e4⟩
  refine ⟨tab, ⟨fun v hv => ?_, fun v hv => ?_, fun v hv => ?_⟩, fun hn ha => ?_, fun v hv m' h1 h2 h3 => ?_⟩
  · obtain ⟨_, _, h2, _⟩ := key v hv; exact h2
  · obtain ⟨_, _, _, h3, _⟩ := key v hv; exact h3
  · obtain ⟨_, _, _, _, h4⟩ := key v hv; exact h4
  · have col : ∀ q ∈ f.pots, q.parents ≠ [] → ∃ m', m.writtenTable q.child = ok (tab q.child, m') ∧ (tab q.child).Wf ∧ (tab q.child).card = (q.child :: q.parents).map f.card ∧
        ∀ x, (∀ j, j < f.card q.child → (tab q.child).at' (states f.card (q.child :: q.parents) (Function.update x q.child j)) = f.entry q (wrap f.card (Function.update x q.child j))) ∨
          ((∀ j, j < f.card q.child → (tab q.child).at' (states f.card (q.child :: q.parents) (Function.update x q.child j)) = 0) ∧ f.net.tables (wrap f.card x) = 0) := by
      intro q hq hqp
      obtain ⟨p, m', e1, _, _, _, e5, e6, e7⟩ := writtenTable_column hf hn ha h.holds h.parents h.orig hq hqp
      have : tab q.child = p := by rw [htab, e1]
      rw [this]
      exact ⟨m', e1, e5, e6, e7⟩
    refine ⟨fun q hq hp => ?_, fun q hq hp => ?_, fun q hq hp => ?_⟩
    · obtain ⟨_, _, h2, _⟩ := col q hq hp; exact h2
    · obtain ⟨_, _, _, h3, _⟩ := col q hq hp; exact h3
    · obtain ⟨_, _, _, _, h4⟩ := col q hq hp; exact h4
  · obtain ⟨k, hk, _⟩ := key v hv
    exact writtenTable_same hf h h1 h2 h3 (hmem v hv) hk

end Model

/-- the texts of a variable -/
def recOf (nodes : List NodeRec) (v : Nat) : NodeRec := (nodes.find? (fun n => n.id == v)).getD ⟨v, [], [], [], 0, 0⟩

/-- The texts and numbers of a model can be printed and read: the variables have texts, with names that differ and as many names of states as states,
successors are variables with as many states, and priors are at most one. -/
structure ReadModel.Printable (r : ReadModel K) : Prop where
  ids : r.nodes.map (fun n => n.id) = r.file.vars
  readable : ∀ n ∈ r.nodes, n.Readable
  names : (r.nodes.map (fun n => n.symbol)).Nodup
  states : ∀ n ∈ r.nodes, n.states.length = r.file.card n.id
  next : ∀ v ∈ r.file.vars, ∀ u, r.file.next v = some u → u ∈ r.file.vars ∧ r.file.card u = r.file.card v
  sizeX : r.sizeX < 2147483648
  sizeY : r.sizeY < 2147483648
  few : ∀ q ∈ r.file.pots, q.parents.length ≤ 100
  priors : ∀ q ∈ r.file.pots, q.parents = [] → ∀ a ∈ q.table.data, a ≤ 1

/-- the description that `write_model` prints -/
def printedText (fmt : K → List Char) (r : ReadModel K) (tab : Nat → Potential K) : NetText :=
  { frame := .net [.size (printNat r.sizeX) (printNat r.sizeY)]
    nodes := r.nodes.map (fun n => printedNode ((r.file.next n.id).map (fun u => (recOf r.nodes u).symbol)) n)
    pots := r.file.net.roots.map (fun v => printedPrior fmt (recOf r.nodes v) (r.file.net.prior v)) ++
      (Model.childrenOf r.file).map (fun v => printedTable fmt (recOf r.nodes v) (r.file.card v) ((r.file.givens v).map (recOf r.nodes)) (tab v).data) }

section Texts

variable {nodes : List NodeRec} {vars : List Nat} (hids : nodes.map (fun n => n.id) = vars)
include hids

theorem textsOf_eq {v : Nat} (hv : v ∈ vars) : textsOf nodes v = ok (recOf nodes v) ∧ recOf nodes v ∈ nodes ∧ (recOf nodes v).id = v := by
  subst hids
  obtain ⟨n, hn, rfl⟩ := List.mem_map.1 hv
  have : (nodes.find? (fun k => k.id == n.id)).isSome := by
    rw [List.find?_isSome]
    exact ⟨n, hn, by simp⟩
  obtain ⟨k, hk⟩ := Option.isSome_iff_exists.1 this
  have h1 := List.find?_some hk
  unfold textsOf recOf
  rw [hk]
  exact ⟨rfl, List.mem_of_find?_eq_some hk, by simpa using h1⟩

theorem recOf_eq (hnd : vars.Nodup) {n : NodeRec} (hn : n ∈ nodes) : recOf nodes n.id = n := by
  obtain ⟨_, h1, h2⟩ := textsOf_eq hids (v := n.id) (by rw [← hids]; exact List.mem_map_of_mem hn)
  subst hids
  exact List.inj_on_of_nodup_map hnd h1 hn h2

theorem map_recOf (hnd : vars.Nodup) : vars.map (recOf nodes) = nodes := by
  conv_lhs => rw [← hids]
  rw [List.map_map]
  conv_rhs => rw [← List.map_id nodes]
  exact List.map_congr_left fun n hn => recOf_eq hids hnd hn

theorem mapM_textsOf {vs : List Nat} (hvs : ∀ v ∈ vs, v ∈ vars) : vs.mapM (textsOf nodes) = ok (vs.map (recOf nodes)) := by
  induction vs with
  | nil => rfl
  | cons v vs ih =>
    rw [List.mapM_cons, (textsOf_eq hids (hvs v (by simp))).1]
    show (Res.ok _ >>= _) = _
    rw [ok_bind, ih fun u hu => hvs u (by simp [hu]), ok_bind]
    rfl

end Texts

theorem prior_unit {r : ReadModel K} (hf : r.file.Valid) (hp : r.Printable) {v : Nat} (hv : v ∈ r.file.net.roots) : ∀ a ∈ r.file.net.prior v, 0 ≤ a ∧ a ≤ 1 := by
  intro a ha
  unfold NetFile.net at ha hv
  simp only at ha hv
  have hroot := of_decide_eq_true (List.mem_filter.1 hv).2
  cases hq : r.file.pots.find? (fun q => decide (q.child = v)) with
  | none =>
    rw [hq] at ha
    rw [List.eq_of_mem_replicate ha]
    exact ⟨le_refl _, zero_le_one⟩
  | some q =>
    rw [hq] at ha
    have h1 := List.mem_of_find?_eq_some hq
    have h2 := List.find?_some hq
    exact ⟨hf.nonneg q h1 a ha, hp.priors q h1 (hroot q h1 (by simpa using h2)) a ha⟩

theorem givens_few {r : ReadModel K} (hf : r.file.Valid) (hp : r.Printable) {v : Nat} (hv : v ∈ Model.childrenOf r.file) :
    0 < (r.file.givens v).length ∧ (r.file.givens v).length ≤ 100 ∧ ∀ u ∈ r.file.givens v, u ∈ r.file.vars := by
  obtain ⟨q, q1, rfl, q3⟩ := (Model.mem_childrenOf hf).1 hv
  rw [givens_child hf q1]
  exact ⟨List.length_pos_of_ne_nil q3, hp.few q q1, fun u hu => ((hf.parents q q1).2 u hu).1⟩

/-- The text that `write_model` prints is the description above. -/
theorem writeModel_laid {fmt : K → List Char} (hfmt : ∀ a, 0 ≤ a → a ≤ 1 → IsNumber (fmt a) ∧ (fmt a).length ≤ 40) {r : ReadModel K} (hf : r.file.Valid) (hp : r.Printable)
    {m1 : Model K} (hm : r.model.reset = ok m1) (h : Model.Idle r.file m1) :
    ∃ tab out m2, Model.TablesIn r.file tab ∧ (r.file.Normalised → r.file.Acyclic → Model.TablesOf r.file tab) ∧ writeModel fmt r = ok (out, m2) ∧ Model.Idle r.file m2 ∧
      Laid 0 out (printedText fmt r tab).lexemes ∧ Model.Same m1 m2 := by
  obtain ⟨tab, t1, t2, t3⟩ := Model.writtenTable_any hf h
  have hnd : r.file.vars.Nodup := hf.sorted.imp ne_of_lt
  have hread : ∀ v ∈ r.file.vars, (recOf r.nodes v).Readable := fun v hv => hp.readable _ (textsOf_eq hp.ids hv).2.1
  have hx := printNat_short hp.sizeX
  have hy := printNat_short hp.sizeY
  have lx : (Lexeme.number (printNat r.sizeX)).Legal := printNat_number _
  have ly : (Lexeme.number (printNat r.sizeY)).Legal := printNat_number _
  have s1 := Laid.start.emitLine (b := [(.key .net, [])]) (by lexemes []) (by apart []) (by short) gap_nil
  have s2 := s1.emitLine (b := [(.mark '{', [])]) (by lexemes []) (by apart []) (by short) (g := [' ', ' ', ' ', ' ']) (by lexemes [])
  have s3 := s2.emitLine (b := [(.key .nodeSize, [' ']), (.mark '=', [' ']), (.mark '(', []), (.number (printNat r.sizeX), [' ']), (.number (printNat r.sizeY), []),
    (.mark ')', []), (.mark ';', [])]) (by lexemes [lx, ly]) (by apart []) (by short) gap_nil
  have s4 := s3.emitLine (b := [(.mark '}', [])]) (by lexemes []) (by apart []) (by short) gap_nil
  have s5 : Laid 0 ("net\n{\n    node_size = (".toList ++ printNat r.sizeX ++ " ".toList ++ printNat r.sizeY ++ ");\n}\n".toList)
      ([.key .net, .mark '{'] ++ (NetField.size (printNat r.sizeX) (printNat r.sizeY)).lexemes ++ [.mark '}']) := by
    refine (s4.weaken (by simp)).of_eq ?_ ?_
    · simp [itemsText, Lexeme.spell, spell_net, spell_nodeSize]
    · simp [NetField.lexemes]
  generalize hts : [Lexeme.key .net, .mark '{'] ++ (NetField.size (printNat r.sizeX) (printNat r.sizeY)).lexemes ++ [.mark '}'] = ts at s5
  -- the nodes
  have nodesLaid : ∀ (vs : List Nat), (∀ v ∈ vs, v ∈ r.file.vars) → ∀ out ts, Laid 0 out ts →
      ∃ out', vs.foldlM (fun out v => do
        let n ← textsOf r.nodes v
        printNode r.nodes r.file.next n out) out = ok out' ∧
        Laid 0 out' (ts ++ (vs.map (fun v => printedNode ((r.file.next v).map (fun u => (recOf r.nodes u).symbol)) (recOf r.nodes v))).flatMap NodeText.lexemes) := by
    intro vs
    induction vs with
    | nil => intro _ out ts h; exact ⟨out, rfl, by simpa using h⟩
    | cons v vs ih =>
      intro hvs out ts hl
      have hv := hvs v (by simp)
      obtain ⟨e1, e2, e3⟩ := textsOf_eq hp.ids hv
      obtain ⟨o1, f1, f2⟩ := printNode_laid (nodes := r.nodes) (next := r.file.next) (v := recOf r.nodes v) (hread v hv)
        (name := (r.file.next v).map (fun u => (recOf r.nodes u).symbol)) (by
          rw [e3]
          cases hnx : r.file.next v with
          | none => exact Or.inl ⟨rfl, rfl⟩
          | some u =>
            have hu := (hp.next v hv u hnx).1
            exact Or.inr ⟨u, recOf r.nodes u, rfl, (textsOf_eq hp.ids hu).1, rfl, hread u hu⟩) hl
      obtain ⟨o2, g1, g2⟩ := ih (fun u hu => hvs u (by simp [hu])) o1 _ f2
      refine ⟨o2, ?_, g2.of_eq rfl (by simp)⟩
      rw [List.foldlM_cons, e1]
      show ((Res.ok _ >>= _) >>= _) = _
      rw [ok_bind, f1]
      exact g1
  have priorsLaid : ∀ (vs : List Nat), (∀ v ∈ vs, v ∈ r.file.net.roots) → ∀ out ts, Laid 0 out ts →
      ∃ out', vs.foldlM (fun out v => do
        let n ← textsOf r.nodes v
        printPrior fmt n (m1.var v).card (m1.var v).prior out) out = ok out' ∧
        Laid 0 out' (ts ++ (vs.map (fun v => printedPrior fmt (recOf r.nodes v) (r.file.net.prior v))).flatMap PotText.lexemes) := by
    intro vs
    induction vs with
    | nil => intro _ out ts h; exact ⟨out, rfl, by simpa using h⟩
    | cons v vs ih =>
      intro hvs out ts hl
      have hv := hvs v (by simp)
      have hv' : v ∈ r.file.vars := h.holds.sound.rsub v hv
      obtain ⟨e1, e2, e3⟩ := textsOf_eq hp.ids hv'
      obtain ⟨p1, p2, _⟩ := h.holds.sound.prior v hv
      obtain ⟨o1, f1, f2⟩ := printPrior_laid (fmt := fmt) (hread v hv') (prior := r.file.net.prior v)
        (fun a ha => hfmt a (prior_unit hf hp hv a ha).1 (prior_unit hf hp hv a ha).2) hl
      obtain ⟨o2, g1, g2⟩ := ih (fun u hu => hvs u (by simp [hu])) o1 _ f2
      refine ⟨o2, ?_, g2.of_eq rfl (by simp)⟩
      rw [List.foldlM_cons, e1]
      show ((Res.ok _ >>= _) >>= _) = _
      rw [ok_bind, p1, show (m1.var v).card = (r.file.net.prior v).length by rw [p2]; exact h.holds.sound.card v, f1]
      exact g1
  have tablesLaid : ∀ (vs : List Nat), (∀ v ∈ vs, v ∈ Model.childrenOf r.file) → ∀ out ts, Laid 0 out ts → ∀ m', Model.Idle r.file m' → Model.Same m1 m' → m'.tree = m1.tree →
      ∃ out' m2, vs.foldlM (fun (st : List Char × Model K) v => do
        let n ← textsOf r.nodes v
        let parents ← (st.2.var v).parents.mapM (textsOf r.nodes)
        let (p, m) ← st.2.writtenTable v
        let out ← printTable fmt n (m.var v).card parents p st.1
        ok (out, m)) (out, m') = ok (out', m2) ∧ Model.Idle r.file m2 ∧
        Laid 0 out' (ts ++ (vs.map (fun v => printedTable fmt (recOf r.nodes v) (r.file.card v) ((r.file.givens v).map (recOf r.nodes)) (tab v).data)).flatMap PotText.lexemes) ∧ Model.Same m1 m2 := by
    intro vs
    induction vs with
    | nil => intro _ out ts h m' hm' hs _; exact ⟨out, m', rfl, hm', by simpa using h, hs⟩
    | cons v vs ih =>
      intro hvs out ts hl m' hm' hsame htree
      have hv := hvs v (by simp)
      have hv' : v ∈ r.file.vars := (List.mem_filter.1 hv).1
      obtain ⟨e1, e2, e3⟩ := textsOf_eq hp.ids hv'
      obtain ⟨c1, c2, c3⟩ := givens_few hf hp hv
      obtain ⟨m2, w1, w2, w3, w4⟩ := t3 v hv m' hm' hsame htree
      have hcard : (m2.var v).card = r.file.card v := w2.holds.sound.card v
      have hstates : ∀ u ∈ r.file.vars, (recOf r.nodes u).states.length = r.file.card u := by
        intro u hu
        obtain ⟨_, b2, b3⟩ := textsOf_eq hp.ids hu
        rw [hp.states _ b2, b3]
      obtain ⟨o1, f1, f2⟩ := printTable_laid (fmt := fmt) (hread v hv') (card := r.file.card v) (hf.states v hv') (parents := (r.file.givens v).map (recOf r.nodes))
        (by
          intro u hu
          obtain ⟨k, hk, rfl⟩ := List.mem_map.1 hu
          exact hread k (c3 k hk)) (by simpa using c1) (by simpa using c2) (p := tab v) (t1.wf v hv)
        (by
          rw [t1.card v hv, List.map_cons, List.map_map]
          congr 1
          exact List.map_congr_left fun u hu => (hstates u (c3 u hu)).symm)
        (fun a ha => hfmt a (t1.unit v hv a ha).1 (t1.unit v hv a ha).2) hl
      obtain ⟨o2, m3, g1, g2, g3, g4⟩ := ih (fun u hu => hvs u (by simp [hu])) o1 _ f2 m2 w2 w3 w4
      refine ⟨o2, m3, ?_, g2, g3.of_eq rfl (by simp), g4⟩
      rw [List.foldlM_cons, e1]
      show ((Res.ok _ >>= _) >>= _) = _
      simp only [ok_bind, hm'.parents, mapM_textsOf hp.ids c3, w1, hcard, f1]
      exact g1
  obtain ⟨o1, a1, a2⟩ := nodesLaid r.file.vars (fun v hv => hv) _ _ s5
  obtain ⟨o2, b1, b2⟩ := priorsLaid r.file.net.roots (fun v hv => hv) _ _ a2
  obtain ⟨o3, m2, d1, d2, d3, d4⟩ := tablesLaid (Model.childrenOf r.file) (fun v hv => hv) _ _ b2 m1 h ⟨rfl, rfl, rfl, fun _ => rfl, fun _ => rfl, fun _ => rfl, fun _ => rfl, fun _ => rfl⟩ rfl
  refine ⟨tab, o3, m2, t1, t2, ?_, d2, d3.of_eq rfl ?_, d4⟩
  · unfold writeModel
    rw [hm]
    simp only [ok_bind]
    rw [show m1.varList = r.file.vars from h.holds.sound.vars, a1]
    simp only [ok_bind]
    rw [show m1.independent = r.file.net.roots from h.holds.sound.roots, b1]
    simp only [ok_bind]
    rw [h.children]
    exact d1
  · rw [← hts]
    unfold printedText NetText.lexemes
    simp only
    have : r.nodes.map (fun n => printedNode ((r.file.next n.id).map (fun u => (recOf r.nodes u).symbol)) n) =
        r.file.vars.map (fun v => printedNode ((r.file.next v).map (fun u => (recOf r.nodes u).symbol)) (recOf r.nodes v)) := by
      rw [← hp.ids, List.map_map]
      exact List.map_congr_left fun n hn => by
        simp only [Function.comp_apply]
        rw [recOf_eq hp.ids hnd hn]
    rw [this]
    simp

end Nip
