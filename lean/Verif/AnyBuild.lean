import Verif.AnyModel
import Verif.BuildLemmas

/-! # Building a model with numbers without laws -/

namespace Nip

open Res Spec

set_option linter.unusedSectionVars false

variable {K : Type} [Zero K] [One K] [Add K] [_root_.Sub K] [Mul K] [Div K] [LinearOrder K] {P : K → Prop}

/-- every cell of a table is its contents at some assignment -/
theorem data_sem {card : Nat → Nat} {vs : List Nat} (hn : vs.Nodup) {p : Potential K} (hp : TableOn card vs p) {a : K} (ha : a ∈ p.data) :
    ∃ x, a = sem card vs p x := by
  obtain ⟨i, hi, rfl⟩ := List.mem_iff_getElem.mp ha
  have hr := digits_inRange hp.wf.2 i
  obtain ⟨x, hx, _⟩ := exists_states hn (by rw [← hp.card_eq]; exact hr)
  refine ⟨x, ?_⟩
  show _ = p.at' (states card vs x)
  rw [← Potential.at'_digits hp.wf hi, hx]

theorem JTree.Safe.of_sem (h0 : P 0) {card : Nat → Nat} {t : JTree K} (ht : t.Typed card) (h1 : ∀ c x, P (t.phi card c x)) (h2 : ∀ c x, P (t.origOf card c x))
    (h3 : ∀ (s : Nat) sp, t.sepsets[s]? = some sp → Cells P sp.old.data ∧ Cells P sp.new.data) : t.Safe P card := by
  refine ⟨ht, ?_, h3⟩
  intro c cl hcl
  obtain ⟨n1, n2, n3⟩ := ht.clq c cl hcl
  constructor
  · intro a ha
    obtain ⟨x, rfl⟩ := data_sem n1 n2 ha
    have := h1 c x
    unfold JTree.phi at this
    rw [hcl] at this; exact this
  · intro a ha
    obtain ⟨x, rfl⟩ := data_sem n1 n3 ha
    have := h2 c x
    unfold JTree.origOf at this
    rw [hcl] at this; exact this

/-- after some tables have been used -/
structure StageAny (P : K → Prop) (f : NetFile K) (t0 : JTree K) (var0 : Nat → VarRec K) (done : List (Parsed K)) (m : Model K) : Prop where
  frame : t0.Frame m.tree
  typed : m.tree.Typed f.card
  cells : ∀ c x, P (m.tree.phi f.card c x) ∧ P (m.tree.origOf f.card c x)
  card : ∀ v, (m.var v).card = (var0 v).card
  parents : ∀ v, (m.var v).parents = (var0 v).parents
  lik : ∀ v, (m.var v).likelihood = (var0 v).likelihood
  entered : ∀ v, (m.var v).priorEntered = (var0 v).priorEntered
  old : ∀ v, (m.var v).oldOutgoing = (var0 v).oldOutgoing
  out : ∀ v, (m.var v).outgoing = (var0 v).outgoing
  prior : ∀ v, (m.var v).prior = match done.find? (fun q => decide (q.child = v)) with
    | some q => if q.parents = [] then some q.table.data else none
    | none => none
  fam : ∀ v ∈ f.vars, ∃ c, m.tree.findClique ((m.var v).parents ++ [v]) = ok (some c) ∧ c < m.tree.cliques.length ∧
    (∀ u ∈ (m.var v).parents ++ [v], u ∈ m.tree.varsOf c) ∧ ((m.var v).familyClique = none ∨ (m.var v).familyClique = some c)
  varList : m.varList = f.vars
  independent : m.independent = []

theorem initTable_any (hP : Closed P) {f : NetFile K} (hf : f.Fits) {t0 : JTree K} {var0 : Nat → VarRec K}
    (hsorted : ∀ (c : Nat) cl, t0.cliques[c]? = some cl → cl.vars.Pairwise (· < ·))
    (hcard : ∀ v, (var0 v).card = f.card v) {done : List (Parsed K)} {q : Parsed K} (hq : q ∈ f.pots) (hqc : Cells P q.table.data)
    (hpar : (var0 q.child).parents = q.parents) (hn : ((done ++ [q]).map (fun q => q.child)).Nodup) {m : Model K} (h : StageAny P f t0 var0 done m) :
    ∃ m', NetFile.initTable (some m) q = ok (some m') ∧ StageAny P f t0 var0 (done ++ [q]) m' := by
  obtain ⟨c, f1, f2, f3, f4⟩ := h.fam q.child (hf.child q hq)
  have hlen := family_length hf hq
  have hon := table_on hf hq
  have hdim : q.table.dim = q.parents.length + 1 := by unfold Potential.dim; rw [hon.card_eq, List.length_map, hlen]
  have hff : m.findFamily q.child = ok (some c, m.memo q.child c) := by
    unfold Model.findFamily
    rcases f4 with e | e
    · rw [e, f1, ok_bind]; rfl
    · rw [e]
      simp only
      congr 2
      unfold Model.memo Model.setVar
      have : ({ m.var q.child with familyClique := some c } : VarRec K) = m.var q.child := by rw [← e]
      rw [this, Function.update_eq_self]
  obtain ⟨m1, hm1⟩ : ∃ m1, m1 = m.memo q.child c := ⟨_, rfl⟩
  rw [← hm1] at hff
  have hsame := Model.memo_same m q.child c
  rw [← hm1] at hsame
  have hmv := Model.memo_var m q.child c
  rw [← hm1] at hmv
  have htree : m1.tree = m.tree := by rw [hm1]; rfl
  have hfam1 : ∀ v ∈ f.vars, ∃ c, m1.tree.findClique ((m1.var v).parents ++ [v]) = ok (some c) ∧ c < m1.tree.cliques.length ∧
      (∀ u ∈ (m1.var v).parents ++ [v], u ∈ m1.tree.varsOf c) ∧ ((m1.var v).familyClique = none ∨ (m1.var v).familyClique = some c) := by
    intro v hv
    obtain ⟨d, g1, g2, g3, g4⟩ := h.fam v hv
    rw [htree, hsame.parents, (hmv v).2.2]
    refine ⟨d, g1, g2, g3, ?_⟩
    by_cases e : v = q.child
    · subst e
      rw [f1] at g1
      simp only [ok.injEq, Option.some.injEq] at g1
      right; simp [g1]
    · simpa [e] using g4
  have hvl : m1.varList = f.vars := hsame.varList.trans h.varList
  have hin : m1.independent = [] := hsame.independent.trans h.independent
  unfold NetFile.initTable
  simp only [hff, ok_bind]
  by_cases hp : q.parents = []
  · have hd : ¬ 1 < q.table.dim := by rw [hdim, hp]; simp
    rw [if_neg hd]
    have hfl : f.family q = [q.child] := by
      have h1 : q.child ∈ f.family q := by unfold NetFile.family; simp [hf.child q hq]
      rw [hp] at hlen
      obtain ⟨a, ha⟩ := List.length_eq_one_iff.mp hlen
      rw [ha] at h1 ⊢
      rw [List.mem_singleton.mp h1]
    have hdl : q.table.data.length = f.card q.child := by
      rw [hon.wf.1, hon.card_eq, hfl]; simp
    have hc1 : (m1.var q.child).card = f.card q.child := by rw [hsame.card, h.card, hcard]
    rw [Model.copy_eq (n := (m1.var q.child).card) (by simp) (hdl.trans hc1.symm), ok_bind]
    refine ⟨_, rfl, ?_⟩
    have hset : ∀ v, (m1.setVar q.child { m1.var q.child with prior := some q.table.data }).var v =
        if v = q.child then { m1.var q.child with prior := some q.table.data } else m1.var v := by
      intro v
      unfold Model.setVar
      simp only
      by_cases e : v = q.child
      · subst e; simp
      · simp [Function.update_of_ne e, e]
    have htr : (m1.setVar q.child { m1.var q.child with prior := some q.table.data }).tree = m.tree := htree
    obtain ⟨m2, hm2⟩ : ∃ m2, m2 = m1.setVar q.child { m1.var q.child with prior := some q.table.data } := ⟨_, rfl⟩
    have hvl2 : m2.varList = f.vars := by rw [hm2]; exact hvl
    have hin2 : m2.independent = [] := by rw [hm2]; exact hin
    rw [← hm2] at hset htr ⊢
    refine ⟨by rw [htr]; exact h.frame, by rw [htr]; exact h.typed, by rw [htr]; exact h.cells, ?_, ?_, ?_, ?_, ?_, ?_, ?_, ?_, hvl2, hin2⟩
    · intro v; rw [hset, ← h.card, ← hsame.card]; split <;> simp_all
    · intro v; rw [hset, ← h.parents, ← hsame.parents]; split <;> simp_all
    · intro v; rw [hset, ← h.lik, ← (hmv v).1]; split <;> simp_all
    · intro v; rw [hset, ← h.entered, ← (hmv v).2.1]; split <;> simp_all
    · intro v; rw [hset, ← h.old, ← hsame.old]; split <;> simp_all
    · intro v; rw [hset, ← h.out, ← hsame.out]; split <;> simp_all
    · intro v
      rw [hset, find_append hn]
      by_cases e : v = q.child
      · simp [e, hp]
      · rw [if_neg e, if_neg e, hsame.prior]; exact h.prior v
    · intro v hv
      obtain ⟨d, g1, g2, g3, g4⟩ := hfam1 v hv
      rw [htree] at g1 g2 g3
      have e1 : (m2.var v).parents = (m1.var v).parents := by rw [hset]; split <;> simp_all
      have e2 : (m2.var v).familyClique = (m1.var v).familyClique := by rw [hset]; split <;> simp_all
      rw [e1, e2, htr]
      exact ⟨d, g1, g2, g3, g4⟩
  · have hd : 1 < q.table.dim := by rw [hdim]; have := List.length_pos_iff.mpr hp; omega
    rw [if_pos hd]
    have hpar1 : (m1.var q.child).parents = q.parents := by rw [hsame.parents, h.parents, hpar]
    have hpar0 : (m.var q.child).parents = q.parents := by rw [h.parents, hpar]
    rw [hpar0] at f3
    obtain ⟨cl, hcl⟩ : ∃ cl, m.tree.cliques[c]? = some cl := ⟨_, List.getElem?_eq_getElem f2⟩
    rw [JTree.varsOf_eq hcl] at f3
    have hso : cl.vars.Pairwise (· < ·) := by
      have h1 : c < t0.cliques.length := by rw [← h.frame.len]; exact f2
      have h2 := hsorted c _ (List.getElem?_eq_getElem h1)
      have h3 := h.frame.vars c
      rw [JTree.varsOf_eq hcl, JTree.varsOf_eq (List.getElem?_eq_getElem h1)] at h3
      rw [h3]; exact h2
    obtain ⟨t', e1, e2, e3, e4, e5⟩ := initClique_eq hf hq (m := m1) (by rw [htree]; exact h.typed) (c := c) (cl := cl) (by rw [htree]; exact hcl) hso
      (by
        intro v hv
        rcases hv with rfl | hv
        · exact f3 _ (by simp)
        · exact f3 _ (by simp [hv])) hpar1
    rw [htree] at e2 e4 e5
    rw [e1, ok_bind]
    simp only [ne_eq, not_true, if_false]
    refine ⟨_, rfl, ?_⟩
    refine ⟨h.frame.trans e2, e3, ?_, ?_, ?_, ?_, ?_, ?_, ?_, ?_, ?_, hvl, hin⟩
    · intro d x
      have hcell : P (f.entry q (wrap f.card x)) := hqc.at' hP.zero _
      rw [e4, e5]
      split
      · exact ⟨hP.mul _ _ (h.cells d x).1 hcell, hP.mul _ _ (h.cells d x).2 hcell⟩
      · exact h.cells d x
    · intro v; exact (hsame.card v).trans (h.card v)
    · intro v; exact (hsame.parents v).trans (h.parents v)
    · intro v; exact (hmv v).1.trans (h.lik v)
    · intro v; exact (hmv v).2.1.trans (h.entered v)
    · intro v; exact (hsame.old v).trans (h.old v)
    · intro v; exact (hsame.out v).trans (h.out v)
    · intro v
      rw [find_append hn]
      show (m1.var v).prior = _
      rw [hsame.prior]
      by_cases e : v = q.child
      · rw [if_pos e]
        simp only [hp, if_false]
        have := h.prior v
        have hnone : done.find? (fun q => decide (q.child = v)) = none := by
          rw [List.find?_eq_none]
          intro q' hq'
          rw [List.map_append, List.nodup_append] at hn
          have := hn.2.2 q'.child (List.mem_map.mpr ⟨q', hq', rfl⟩) q.child (by simp)
          simpa [e] using this
        rw [hnone] at this
        exact this
      · rw [if_neg e]; exact h.prior v
    · intro v hv
      obtain ⟨d, g1, g2, g3, g4⟩ := hfam1 v hv
      rw [htree] at g1 g2 g3
      refine ⟨d, ?_, ?_, ?_, g4⟩
      · show t'.findClique _ = _
        rw [e2.find]; exact g1
      · show d < t'.cliques.length
        rw [e2.len]; exact g2
      · intro u hu
        show u ∈ t'.varsOf d
        rw [e2.vars]; exact g3 u hu

theorem initTables_any (hP : Closed P) {f : NetFile K} (hf : f.Fits) (hcells : ∀ q ∈ f.pots, Cells P q.table.data) {t0 : JTree K} {var0 : Nat → VarRec K}
    (hsorted : ∀ (c : Nat) cl, t0.cliques[c]? = some cl → cl.vars.Pairwise (· < ·))
    (hcard : ∀ v, (var0 v).card = f.card v) (hpar : ∀ q ∈ f.pots, (var0 q.child).parents = q.parents) :
    ∀ (qs done : List (Parsed K)) (m : Model K), done ++ qs = f.pots → StageAny P f t0 var0 done m →
      ∃ m', qs.foldlM NetFile.initTable (some m) = ok (some m') ∧ StageAny P f t0 var0 f.pots m' := by
  intro qs
  induction qs with
  | nil => intro done m hd h; rw [List.append_nil] at hd; subst hd; exact ⟨m, rfl, h⟩
  | cons q qs ih =>
    intro done m hd h
    have hq : q ∈ f.pots := by rw [← hd]; simp
    have hn : ((done ++ [q]).map (fun q => q.child)).Nodup := by
      have := hf.distinct
      rw [← hd, show done ++ q :: qs = (done ++ [q]) ++ qs by simp, List.map_append, List.nodup_append] at this
      exact this.1
    obtain ⟨m1, a1, a2⟩ := initTable_any hP hf hsorted hcard hq (hcells q hq) (hpar q hq) hn h
    obtain ⟨m', b1, b2⟩ := ih (done ++ [q]) m1 (by simpa using hd) a2
    refine ⟨m', ?_, b2⟩
    rw [List.foldlM_cons, a1]
    exact b1

theorem build_any (hP : Closed P) (ptr : Nat) {f : NetFile K} (hf : f.Fits) (hcells : ∀ q ∈ f.pots, Cells P q.table.data) :
    ∃ m, NetFile.build ptr f = ok (some m) ∧ Model.Fit P f.card f.vars m ∧
      (∀ v, (m.var v).parents = NetFile.parentsOf f v ∧ (m.var v).outgoing = (NetFile.record f v).outgoing ∧
        (m.var v).oldOutgoing = (NetFile.record f v).oldOutgoing) ∧
      (∃ c, c < m.tree.cliques.length ∧ ∀ v ∈ f.vars, (m.var v).outgoing = true → v ∈ m.tree.varsOf c) ∧
      (∃ c, c < m.tree.cliques.length ∧ ∀ v ∈ f.vars, (m.var v).oldOutgoing = true → v ∈ m.tree.varsOf c) := by
  have hnd : f.vars.Nodup := hf.sorted.imp ne_of_lt
  obtain ⟨g, var, g1, g2, g3⟩ := toGraph_eq hf
  have hne : f.vars ≠ [] := by
    intro h
    obtain ⟨q, hq⟩ := List.exists_mem_of_ne_nil _ hf.tables
    have := hf.child q hq
    rw [h] at this; cases this
  obtain ⟨code, L, t, t1, t2, t3, t4, t5, t6, t7, t8, t9, t10⟩ := graphToTree_spec (K := K) ptr (clusterPrimaryCost (isParent (NetFile.record f)))
    (clusterSecondaryCost f.card) f.card (fun v => (NetFile.record f v).oldOutgoing) (fun v => (NetFile.record f v).outgoing) g2 rfl hne (by
      intro a ha
      obtain ⟨q, hq, e, hu⟩ := mem_arrows.mp ha
      exact ((hf.parents q hq).2 a hu).2 e.symm) (by
      rintro ⟨u, v⟩ he
      obtain ⟨q, hq, e, hu⟩ := mem_arrows.mp he
      exact ((hf.parents q hq).2 u hu).1)
  have hpos : ∀ (c : Nat) cl, t.cliques[c]? = some cl → ∀ v ∈ cl.vars, 0 < f.card v := fun c cl hcl v hv => hf.states v ((t4 c cl hcl).2.1 v hv)
  have hnodup : ∀ c, (t.varsOf c).Nodup := by
    intro c
    cases h : t.cliques[c]? with
    | none => unfold JTree.varsOf; rw [h]; exact List.nodup_nil
    | some cl => rw [JTree.varsOf_eq h]; exact (t4 c cl h).1.imp ne_of_lt
  have hvpos : ∀ c, ∀ v ∈ t.varsOf c, 0 < f.card v := by
    intro c v hv
    cases h : t.cliques[c]? with
    | none => unfold JTree.varsOf at hv; rw [h] at hv; cases hv
    | some cl => rw [JTree.varsOf_eq h] at hv; exact hpos c cl h v hv
  have hsep : ∀ (s : Nat) sp, t.sepsets[s]? = some sp → ∃ e ∈ L, sp = mkSep f.card t.varsOf e := by
    intro s sp hs
    rw [t3, List.getElem?_map, Option.map_eq_some_iff] at hs
    obtain ⟨e, h1, h2⟩ := hs
    exact ⟨e, by simpa using List.mem_of_getElem? h1, h2.symm⟩
  have htyped : t.Typed f.card := by
    refine ⟨?_, ?_⟩
    · intro c cl hcl
      obtain ⟨h1, h2, h3, h4⟩ := t4 c cl hcl
      refine ⟨h1.imp ne_of_lt, ?_, ?_⟩
      · rw [h3]; exact ones_on (hpos c cl hcl)
      · rw [h4]; exact ones_on (hpos c cl hcl)
    · intro s sp hs
      obtain ⟨e, _, rfl⟩ := hsep s sp hs
      have hp : ∀ v ∈ (t.varsOf e.1).filter (· ∈ t.varsOf e.2), 0 < f.card v := fun v hv => hvpos e.1 v (List.mem_filter.mp hv).1
      refine ⟨(hnodup e.1).filter _, ones_on hp, ones_on hp, List.filter_subset_self _, ?_⟩
      intro v hv
      exact of_decide_eq_true (List.mem_filter.mp hv).2
  have horig : ∀ c x, t.origOf f.card c x = 1 := by
    intro c x
    unfold JTree.origOf
    cases h : t.cliques[c]? with
    | none => rfl
    | some cl => simp only; rw [(t4 c cl h).2.2.2]; exact sem_ones (hpos c cl h) x
  have hphi : ∀ c x, t.phi f.card c x = 1 := by
    intro c x
    unfold JTree.phi
    cases h : t.cliques[c]? with
    | none => rfl
    | some cl => simp only; rw [(t4 c cl h).2.2.1]; exact sem_ones (hpos c cl h) x
  have hpsi : ∀ s x, t.psi f.card s x = 1 := by
    intro s x
    unfold JTree.psi
    cases h : t.sepsets[s]? with
    | none => rfl
    | some sp =>
      obtain ⟨e, _, rfl⟩ := hsep s sp h
      exact sem_ones (fun v hv => hvpos e.1 v (List.mem_filter.mp hv).1) x
  obtain ⟨m0, hm0⟩ : ∃ m0 : Model K, m0 = { tree := t, var := NetFile.record f, varList := f.vars, independent := [] } := ⟨_, rfl⟩
  have hcov : ∀ v ∈ f.vars, ∃ c, t.findClique (NetFile.parentsOf f v ++ [v]) = ok (some c) ∧ c < t.cliques.length ∧
      ∀ u ∈ NetFile.parentsOf f v ++ [v], u ∈ t.varsOf c := by
    intro v hv
    obtain ⟨c, h1, h2, h3⟩ := t5 v hv
    refine findClique_some ⟨c, h1, ?_⟩
    intro u hu
    rcases List.mem_append.mp hu with hu | hu
    · exact h3 u (mem_arrows.mpr ((mem_parentsOf hf).mp hu))
    · rw [List.mem_singleton.mp hu]; exact h2
  have hst0 : StageAny P f t (NetFile.record f) [] m0 := by
    rw [hm0]
    refine ⟨⟨rfl, rfl⟩, htyped, ?_, fun _ => rfl, fun _ => rfl, fun _ => rfl, fun _ => rfl, fun _ => rfl, fun _ => rfl, fun _ => rfl, ?_, rfl, rfl⟩
    · intro c x; show P (t.phi _ c x) ∧ P (t.origOf _ c x); rw [hphi, horig]; exact ⟨hP.one, hP.one⟩
    · intro v hv
      obtain ⟨c, h1, h2, h3⟩ := hcov v hv
      exact ⟨c, h1, h2, h3, Or.inl rfl⟩
  obtain ⟨m1, i1, i2⟩ := initTables_any hP hf hcells (fun c cl h => (t4 c cl h).1) (fun _ => rfl) (fun q hq => parentsOf_child hf hq) f.pots [] m0 rfl hst0
  obtain ⟨m, hm⟩ : ∃ m, m = NetFile.complete m1 := ⟨_, rfl⟩
  have hmt : m.tree = m1.tree := by rw [hm]; rfl
  have hmv : ∀ v, (m.var v).card = f.card v ∧ (m.var v).parents = NetFile.parentsOf f v ∧ (m.var v).likelihood = List.replicate (f.card v) 1 ∧
      (m.var v).priorEntered = false ∧ (m.var v).oldOutgoing = (NetFile.record f v).oldOutgoing ∧ (m.var v).outgoing = (NetFile.record f v).outgoing ∧
      (m.var v).familyClique = (m1.var v).familyClique := by
    intro v
    rw [hm]
    unfold NetFile.complete
    simp only
    split
    · exact ⟨i2.card v, i2.parents v, i2.lik v, i2.entered v, i2.old v, i2.out v, rfl⟩
    · exact ⟨i2.card v, i2.parents v, i2.lik v, i2.entered v, i2.old v, i2.out v, rfl⟩
  have hsafe : m.tree.Safe P f.card := by
    rw [hmt]
    refine JTree.Safe.of_sem hP.zero i2.typed (fun c x => (i2.cells c x).1) (fun c x => (i2.cells c x).2) ?_
    intro s sp hs
    rw [i2.frame.sep] at hs
    obtain ⟨e, _, rfl⟩ := hsep s sp hs
    exact ⟨Cells.replicate hP.one, Cells.replicate hP.one⟩
  have hindep : m.independent = f.vars.filter (fun v => (NetFile.parentsOf f v).isEmpty) := by
    rw [hm]
    show m1.varList.filter _ = _
    rw [i2.varList]
    apply List.filter_congr
    intro v _
    rw [i2.parents]; rfl
  have hfit : Model.Fit P f.card f.vars m := by
    refine ⟨⟨L, ?_⟩, hsafe, fun v => (hmv v).1, by rw [hm]; exact i2.varList, ?_, ?_, ?_⟩
    · rw [hmt]
      exact t2.frame i2.frame.shape (by rw [i2.frame.sep]) i2.frame.vars
    · intro v hv
      rw [hindep, List.mem_filter, List.isEmpty_iff] at hv
      obtain ⟨hv1, hv2⟩ := hv
      refine ⟨hv1, ?_⟩
      have hp1 := i2.prior v
      cases h : f.pots.find? (fun q => decide (q.child = v)) with
      | none =>
        rw [h] at hp1
        simp only at hp1
        refine ⟨List.replicate (f.card v) 0, ?_, by simp, Cells.replicate hP.zero⟩
        rw [hm]
        unfold NetFile.complete
        simp only
        rw [if_pos ⟨by rw [i2.varList]; exact hv1, by rw [i2.parents]; exact hv2, hp1⟩]
        simp only
        rw [i2.card]; rfl
      | some q =>
        rw [h] at hp1
        have hqm := List.mem_of_find?_eq_some h
        have hqc := List.find?_some h
        simp only [decide_eq_true_eq] at hqc
        have hqp : q.parents = [] := by rw [← parentsOf_child hf hqm, hqc]; exact hv2
        simp only [hqp, if_true] at hp1
        refine ⟨q.table.data, ?_, ?_, hcells q hqm⟩
        · rw [hm]
          unfold NetFile.complete
          simp only
          rw [if_neg (by rw [hp1]; simp)]
          exact hp1
        · have hlen := family_length hf hqm
          have hfl : f.family q = [q.child] := by
            have h1 : q.child ∈ f.family q := by unfold NetFile.family; simp [hf.child q hqm]
            rw [hqp] at hlen
            obtain ⟨a, ha⟩ := List.length_eq_one_iff.mp hlen
            rw [ha] at h1 ⊢
            rw [List.mem_singleton.mp h1]
          obtain ⟨s1, s2⟩ := hf.shape q hqm
          rw [s2, s1, hfl, ← hqc]; simp
    · intro v _
      rw [(hmv v).2.2.1]
      exact ⟨by simp, Cells.replicate hP.one⟩
    · intro v hv
      obtain ⟨c, h1, h2, h3, h4⟩ := i2.fam v hv
      rw [hmt, (hmv v).2.1, (hmv v).2.2.2.2.2.2]
      rw [i2.parents] at h1 h3
      exact ⟨c, h1, h2, h3 v (by simp), h4⟩
  refine ⟨m, ?_, hfit, fun v => ⟨(hmv v).2.1, (hmv v).2.2.2.2.2.1, (hmv v).2.2.2.2.1⟩, ?_, ?_⟩
  · unfold NetFile.build
    rw [g1, ok_bind]
    simp only
    rw [g3, t1, ok_bind]
    simp only
    rw [← hm0, i1, ok_bind]
    simp only
    rw [hm]
  · obtain ⟨c, h1, h2⟩ := t6
    refine ⟨c, by rw [hmt, i2.frame.len]; exact h1, ?_⟩
    intro v hv ho
    rw [hmt, i2.frame.vars]
    exact h2 v hv (by rw [← (hmv v).2.2.2.2.2.1]; exact ho)
  · obtain ⟨c, h1, h2⟩ := t7
    refine ⟨c, by rw [hmt, i2.frame.len]; exact h1, ?_⟩
    intro v hv ho
    rw [hmt, i2.frame.vars]
    exact h2 v hv (by rw [← (hmv v).2.2.2.2.1]; exact ho)

end Nip
