import Verif.WriteModel
import Verif.Continue

/-! # The tables written by `write_model` -/

namespace Nip

open Res Spec

set_option linter.unusedSectionVars false

variable {K : Type} [Field K] [LinearOrder K] [IsStrictOrderedRing K]

namespace Model

/-- the table written for a variable, from the original table of a clique -/
theorem writtenTable_eq {f : NetFile K} (hf : f.Valid) {m : Model K} {w : World K} (h : Holds f.net m w) (hpar : ∀ v, (m.var v).parents = f.givens v)
    {v : Nat} (hv : v ∈ f.vars) :
    ∃ p c cl, m.writtenTable v = ok (p, m.memo v c) ∧ m.tree.findClique (f.givens v ++ [v]) = ok (some c) ∧ m.tree.cliques[c]? = some cl ∧
      v :: f.givens v ⊆ cl.vars ∧ p.Wf ∧ p.card = (v :: f.givens v).map f.card ∧
      ∃ g : List Nat → K, (∀ x, g (states f.card (v :: f.givens v) x) = sumOver f.card (without cl.vars (v :: f.givens v)) (sem f.card cl.vars cl.orig) x) ∧
        ∀ k t, k < f.card v → InRange ((f.givens v).map f.card) t →
          p.at' (k :: t) = if (∑ i ∈ Finset.range (f.card v), g (i :: t)) = 0 then g (k :: t) else g (k :: t) / ∑ i ∈ Finset.range (f.card v), g (i :: t) := by
  obtain ⟨c, f1, f2, f3, f4⟩ := findFamily_eq h.sound hv
  rw [hpar] at f2
  obtain ⟨cl, hcl⟩ : ∃ cl, m.tree.cliques[c]? = some cl := ⟨_, List.getElem?_eq_getElem f3⟩
  have hvars := JTree.varsOf_eq hcl
  obtain ⟨n1, n2, n3⟩ := h.sound.typed.clq c cl hcl
  have hsub := findClique_sub f2
  have hsub' : v :: f.givens v ⊆ cl.vars := by
    intro u hu
    rw [← hvars]
    rcases List.mem_cons.mp hu with rfl | hu
    · exact hsub _ (by simp)
    · exact hsub _ (by simp [hu])
  have hmap := familyMapping_eq n1 (givens_spec hf v).1 (hsub' (List.mem_cons_self ..)) (fun u hu => hsub' (List.mem_cons_of_mem _ hu))
  have hcard : (m.var v).card :: (m.var v).parents.map (fun u => (m.var u).card) = (v :: f.givens v).map f.card := by
    rw [hpar, List.map_cons, show (m.var v).card = f.card v from h.sound.card v]
    congr 1
    exact List.map_congr_left fun u _ => h.sound.card u
  have hpos : ∀ u ∈ v :: f.givens v, 0 < f.card u := fun u hu => hf.states u (cell_sub hf hv u hu)
  obtain ⟨p0, hp0⟩ : ∃ p0 : Potential K, p0 = ⟨(v :: f.givens v).map f.card, List.replicate ((v :: f.givens v).map f.card).prod 1⟩ := ⟨_, rfl⟩
  have hnew : Potential.new (K := K) ((v :: f.givens v).map f.card) (((v :: f.givens v).map f.card).length : Int) none = ok (some p0) := by
    unfold Potential.new
    rw [if_neg (by omega)]
    simp only [Int.toNat_natCast]
    rw [Potential.sizeOf_eq _ (le_refl _)]
    simp only [ok_bind, List.take_length, hp0]
  have hpon : TableOn f.card (v :: f.givens v) p0 := by
    rw [hp0]
    exact ⟨⟨by simp, by simpa [Positive] using hpos⟩, rfl⟩
  have hlen : (v :: f.givens v).length ≤ cl.vars.length := ((cell_nodup hf v).subperm hsub').length_le
  have hg := Potential.generalMarginalise_ofFn n3.wf hpon.wf (mapping := places cl.vars (v :: f.givens v))
    (by rw [n3.card_eq, hpon.card_eq]; exact places_into hsub') (by rw [n3.card_eq, hpon.card_eq]; simpa using hlen)
  obtain ⟨q, hq⟩ : ∃ q, q = Potential.ofFn p0.card (fun y => sumTuples cl.orig.card (fun x => project (places cl.vars (v :: f.givens v)) x = y) cl.orig.at') :=
    ⟨_, rfl⟩
  rw [← hq] at hg
  have hqon : TableOn f.card (v :: f.givens v) q := by rw [hq, hpon.card_eq]; exact ofFn_on hpon.pos _
  have hqsem : ∀ x, sem f.card (v :: f.givens v) q x = sumOver f.card (without cl.vars (v :: f.givens v)) (sem f.card cl.vars cl.orig) x := by
    intro x
    rw [hq, hpon.card_eq, sem_ofFn hpon.pos]
    exact sumTuples_sem n1 hsub' n3 x
  obtain ⟨p, k1, k2, k3, k4⟩ := Potential.normaliseCpd_at' hqon.wf (n := f.card v) (cs := (f.givens v).map f.card) (by rw [hqon.card_eq]; rfl)
  refine ⟨p, c, cl, ?_, f2, hcl, hsub', k2, k3.trans hqon.card_eq, q.at', fun x => ?_, k4⟩
  · unfold writtenTable
    simp only
    rw [hcard, hnew, ok_bind]
    simp only
    rw [f1, ok_bind]
    simp only
    have htree : (m.memo v c).tree = m.tree := rfl
    rw [htree, rd_eq_ok.mpr hcl, ok_bind, (memo_same m v c).parents, hpar, hmap, ok_bind, hg, ok_bind]
    simp only
    rw [k1, ok_bind]
  · rw [← hqsem]
    rfl

/-- a column of the table written is right, or it is zero and cannot occur -/
theorem writtenTable_column {f : NetFile K} (hf : f.Valid) (hn : f.Normalised) (ha : f.Acyclic) {m : Model K} {w : World K} (h : Holds f.net m w)
    (hpar : ∀ v, (m.var v).parents = f.givens v) (horig : ∀ c x, m.tree.origOf f.card c x = tablesProd f (residents f m.tree c) x)
    {q : Parsed K} (hq : q ∈ f.pots) (hqp : q.parents ≠ []) :
    ∃ p m', m.writtenTable q.child = ok (p, m') ∧ Same m m' ∧ m'.tree = m.tree ∧ Holds f.net m' w ∧ p.Wf ∧ p.card = (q.child :: q.parents).map f.card ∧
      ∀ x, (∀ j, j < f.card q.child → p.at' (states f.card (q.child :: q.parents) (Function.update x q.child j)) = f.entry q (wrap f.card (Function.update x q.child j))) ∨
        ((∀ j, j < f.card q.child → p.at' (states f.card (q.child :: q.parents) (Function.update x q.child j)) = 0) ∧ f.net.tables (wrap f.card x) = 0) := by
  obtain ⟨rank, hr⟩ := ha
  have hs := h.sound
  have hv := hf.child q hq
  have hg := givens_child hf hq
  obtain ⟨p, c, cl, e1, e2, e3, e4, e5, e6, g, e7, e8⟩ := writtenTable_eq hf h hpar hv
  have e2' : m.tree.findClique ((m.var q.child).parents ++ [q.child]) = ok (some c) := by rw [hpar]; exact e2
  rw [hg] at e2 e4 e6 e7 e8
  refine ⟨p, m.memo q.child c, e1, memo_same m _ c, rfl, h.memo e2', e5, e6, ?_⟩
  obtain ⟨n1, n2, n3⟩ := hs.typed.clq c cl e3
  have hsem : ∀ x, sem f.card cl.vars cl.orig x = tablesProd f (residents f m.tree c) x := by
    intro x
    rw [← horig]
    unfold JTree.origOf
    rw [e3]
  have hin : ∀ q ∈ residents f m.tree c, q.child ∈ cl.vars := by
    intro q hq
    rw [← JTree.varsOf_eq e3]
    exact findClique_sub (mem_residents.mp hq).2.2 q.child (by simp)
  have hres : q ∈ residents f m.tree c := mem_residents.mpr ⟨hq, hqp, e2⟩
  obtain ⟨H, i1, i2⟩ := counts_child hf hn hr n1 hin hres
  have hcount : ∀ x, g (states f.card (q.child :: q.parents) x) = f.entry q (wrap f.card x) * H x := by
    intro x
    rw [e7 x, ← i2 x]
    exact sumOver_congr' hsem
  have hnp : q.child ∉ q.parents := by rw [← hg]; exact not_own_parent hf _
  have hst : ∀ (x : Asg) j, j < f.card q.child → states f.card (q.child :: q.parents) (Function.update x q.child j) = j :: states f.card q.parents x := by
    intro x j hj
    have := column_update (f := f) (v := q.child) (by rw [hg]; exact hnp) hj x
    rw [hg] at this
    rw [← this]
    rfl
  intro x
  have hcol : ∀ j ∈ Finset.range (f.card q.child), g (j :: states f.card q.parents x) = f.entry q (wrap f.card (Function.update x q.child j)) * H x := by
    intro j hj
    rw [← hst x j (Finset.mem_range.mp hj), hcount, i1]
  have hsum : ∑ i ∈ Finset.range (f.card q.child), g (i :: states f.card q.parents x) = H x := by
    rw [Finset.sum_congr rfl hcol, ← Finset.sum_mul, entry_sum hf hn hq, one_mul]
  have hcell : ∀ j, j < f.card q.child → p.at' (states f.card (q.child :: q.parents) (Function.update x q.child j)) =
      if H x = 0 then f.entry q (wrap f.card (Function.update x q.child j)) * H x else f.entry q (wrap f.card (Function.update x q.child j)) * H x / H x := by
    intro j hj
    rw [hst x j hj, e8 j _ hj (states_inRange (fun u hu => hf.states u ((hf.parents q hq).2 u hu).1) x), hsum, hcol j (Finset.mem_range.mpr hj)]
  by_cases h0 : H x = 0
  · right
    refine ⟨fun j hj => by rw [hcell j hj, if_pos h0, h0, mul_zero], ?_⟩
    have hz : sumOver f.card (without cl.vars (q.child :: q.parents)) (tablesProd f (residents f m.tree c)) x = 0 := by rw [i2, h0, mul_zero]
    have hc : c < m.tree.cliques.length := (List.getElem?_eq_some_iff.mp e3).1
    have hz' : tablesProd f (residents f m.tree c) x = 0 := by
      refine sumOver_zero (card := f.card) ?_ ?_ (fun u hu => n2.pos u (mem_without.mp hu).1) hz
      · intro z; rw [← horig]; exact hs.onneg c z
      · intro z u
        rw [← hsem, ← hsem]
        exact sem_modular _ _ z u
    have := hs.origs x
    rw [Finset.prod_eq_zero (Finset.mem_range.mpr hc) (by show m.tree.origOf f.card c x = 0; rw [horig]; exact hz')] at this
    exact this.symm
  · left
    intro j hj
    rw [hcell j hj, if_neg h0, mul_div_assoc, div_self h0, mul_one]

/-- a model made from a file, in the state that `reset_model` leaves, and perhaps with some cliques remembered -/
structure Idle (f : NetFile K) (m : Model K) : Prop where
  holds : Holds f.net m (World.fresh f.net)
  parents : ∀ v, (m.var v).parents = f.givens v
  orig : ∀ c x, m.tree.origOf f.card c x = tablesProd f (residents f m.tree c) x

/-- the computation, for a known clique -/
def tableAt (t : JTree K) (card : List Nat) (v : Nat) (parents : List Nat) (c : Nat) : Res (Potential K) := do
  let p : Option (Potential K) ← Potential.new card (card.length : Int) none
  match p with
  | none => ub
  | some p => do
    let cl ← rd t.cliques c
    let mp ← familyMapping cl.vars v parents
    let (_, p) ← Potential.generalMarginalise cl.orig p mp
    p.normaliseCpd

theorem writtenTable_at {m : Model K} {v c : Nat} (h : m.findFamily v = ok (some c, m.memo v c)) :
    m.writtenTable v = (tableAt m.tree ((m.var v).card :: (m.var v).parents.map (fun u => (m.var u).card)) v (m.var v).parents c).bind (fun p => ok (p, m.memo v c)) := by
  unfold writtenTable tableAt
  simp only
  rcases Potential.new (K := K) _ _ _ with (_ | p) | _
  · rfl
  · simp only [ok_bind, h]
    rw [(memo_same m v c).parents, show (m.memo v c).tree = m.tree from rfl]
    rcases rd m.tree.cliques c with cl | _
    · simp only [ok_bind]
      rcases familyMapping cl.vars v (m.var v).parents with mp | _
      · simp only [ok_bind]
        rcases Potential.generalMarginalise cl.orig p mp with ⟨e, q⟩ | _
        · simp only [ok_bind]
          rfl
        · rfl
      · rfl
    · rfl
  · rfl

/-- remembered cliques make no difference -/
theorem writtenTable_same {f : NetFile K} (hf : f.Valid) {m m' : Model K} (h : Idle f m) (h' : Idle f m') (hs : Same m m') (ht : m'.tree = m.tree) {v : Nat}
    (hv : v ∈ f.vars) {p : Potential K} {k : Model K} (hp : m.writtenTable v = ok (p, k)) :
    ∃ m2, m'.writtenTable v = ok (p, m2) ∧ Idle f m2 ∧ Same m m2 ∧ m2.tree = m.tree := by
  obtain ⟨c, f1, f2, f3, f4⟩ := findFamily_eq h.holds.sound hv
  obtain ⟨c', f1', f2', f3', f4'⟩ := findFamily_eq h'.holds.sound hv
  rw [ht, hs.parents, f2] at f2'
  cases f2'
  refine ⟨m'.memo v c, ?_, ?_, hs.trans (memo_same m' v c), ht⟩
  · rw [writtenTable_at f1] at hp
    rw [writtenTable_at f1', ht, hs.parents, hs.card, List.map_congr_left (g := fun u => (m.var u).card) (fun u _ => hs.card u)]
    revert hp
    rcases tableAt m.tree _ v (m.var v).parents c with q | _
    · intro hp
      cases hp
      rfl
    · intro hp; cases hp
  · refine ⟨h'.holds.memo (by rw [h'.parents, ← h.parents, ht]; exact f2), fun u => by rw [(memo_same m' v c).parents]; exact h'.parents u, h'.orig⟩

/-- what is written for each variable with parents -/
structure TablesOf (f : NetFile K) (tab : Nat → Potential K) : Prop where
  wf : ∀ q ∈ f.pots, q.parents ≠ [] → (tab q.child).Wf
  card : ∀ q ∈ f.pots, q.parents ≠ [] → (tab q.child).card = (q.child :: q.parents).map f.card
  column : ∀ q ∈ f.pots, q.parents ≠ [] → ∀ x,
    (∀ j, j < f.card q.child → (tab q.child).at' (states f.card (q.child :: q.parents) (Function.update x q.child j)) = f.entry q (wrap f.card (Function.update x q.child j))) ∨
      ((∀ j, j < f.card q.child → (tab q.child).at' (states f.card (q.child :: q.parents) (Function.update x q.child j)) = 0) ∧ f.net.tables (wrap f.card x) = 0)

theorem writtenTable_all {f : NetFile K} (hf : f.Valid) (hn : f.Normalised) (ha : f.Acyclic) {m : Model K} (h : Idle f m) :
    ∃ tab, TablesOf f tab ∧ ∀ q ∈ f.pots, q.parents ≠ [] → ∀ m', Idle f m' → Same m m' → m'.tree = m.tree →
      ∃ m2, m'.writtenTable q.child = ok (tab q.child, m2) ∧ Idle f m2 ∧ Same m m2 ∧ m2.tree = m.tree := by
  obtain ⟨tab, htab⟩ : ∃ tab : Nat → Potential K, ∀ v, tab v = match m.writtenTable v with | ok (p, _) => p | ub => ⟨[], []⟩ := ⟨fun v => _, fun v => rfl⟩
  have key : ∀ q ∈ f.pots, q.parents ≠ [] → ∃ m', m.writtenTable q.child = ok (tab q.child, m') ∧ (tab q.child).Wf ∧ (tab q.child).card = (q.child :: q.parents).map f.card ∧
      ∀ x, (∀ j, j < f.card q.child → (tab q.child).at' (states f.card (q.child :: q.parents) (Function.update x q.child j)) = f.entry q (wrap f.card (Function.update x q.child j))) ∨
        ((∀ j, j < f.card q.child → (tab q.child).at' (states f.card (q.child :: q.parents) (Function.update x q.child j)) = 0) ∧ f.net.tables (wrap f.card x) = 0) := by
    intro q hq hqp
    obtain ⟨p, m', e1, _, _, _, e5, e6, e7⟩ := writtenTable_column hf hn ha h.holds h.parents h.orig hq hqp
    have : tab q.child = p := by rw [htab, e1]
    rw [this]
    exact ⟨m', e1, e5, e6, e7⟩
  refine ⟨tab, ⟨fun q hq hp => ?_, fun q hq hp => ?_, fun q hq hp => ?_⟩, ?_⟩
  · obtain ⟨_, _, h2, _⟩ := key q hq hp; exact h2
  · obtain ⟨_, _, _, h3, _⟩ := key q hq hp; exact h3
  · obtain ⟨_, _, _, _, h4⟩ := key q hq hp; exact h4
  · intro q hq hp m' h1 h2 h3
    obtain ⟨k, hk, _⟩ := key q hq hp
    exact writtenTable_same hf h h1 h2 h3 (hf.child q hq) hk

/-- the variables with parents -/
def childrenOf (f : NetFile K) : List Nat := f.vars.filter (fun v => decide (f.givens v ≠ []))

theorem mem_childrenOf {f : NetFile K} (hf : f.Valid) {v : Nat} : v ∈ childrenOf f ↔ ∃ q ∈ f.pots, q.child = v ∧ q.parents ≠ [] := by
  unfold childrenOf
  rw [List.mem_filter, decide_eq_true_eq]
  constructor
  · rintro ⟨h1, h2⟩
    obtain ⟨u, hu⟩ := List.exists_mem_of_ne_nil _ h2
    rw [givens_eq, mem_parentsOf hf] at hu
    obtain ⟨q, q1, q2, q3⟩ := hu
    exact ⟨q, q1, q2, List.ne_nil_of_mem q3⟩
  · rintro ⟨q, h1, rfl, h2⟩
    exact ⟨hf.child q h1, by rw [givens_child hf h1]; exact h2⟩

theorem Idle.children {f : NetFile K} {m : Model K} (h : Idle f m) : m.children = childrenOf f := by
  unfold Model.children childrenOf
  rw [show m.varList = f.vars from h.holds.sound.vars]
  apply List.filter_congr
  intro v _
  rw [h.parents]
  cases f.givens v <;> simp

theorem writtenTables_spec {f : NetFile K} (hf : f.Valid) (hn : f.Normalised) (ha : f.Acyclic) {m m1 : Model K} (hm : m.reset = ok m1) (h : Idle f m1) :
    ∃ tab m2, TablesOf f tab ∧ m.writtenTables = ok ((childrenOf f).map (fun v => (v, tab v)), m2) ∧ Idle f m2 := by
  obtain ⟨tab, h1, h2⟩ := writtenTable_all hf hn ha h
  have key : ∀ (vs : List Nat), (∀ v ∈ vs, v ∈ childrenOf f) → ∀ (acc : List (Nat × Potential K)) (m' : Model K), Idle f m' → Same m1 m' → m'.tree = m1.tree →
      ∃ m2, vs.foldlM (fun (st : List (Nat × Potential K) × Model K) v => do
        let (p, m) ← st.2.writtenTable v
        ok (st.1 ++ [(v, p)], m)) (acc, m') = ok (acc ++ vs.map (fun v => (v, tab v)), m2) ∧ Idle f m2 := by
    intro vs
    induction vs with
    | nil => intro _ acc m' h3 _ _; exact ⟨m', by simp [List.foldlM_nil], h3⟩
    | cons v vs ih =>
      intro hvs acc m' h3 h4 h5
      obtain ⟨q, hq, rfl, hqp⟩ := (mem_childrenOf hf).mp (hvs v (by simp))
      obtain ⟨m2, k1, k2, k3, k4⟩ := h2 q hq hqp m' h3 h4 h5
      obtain ⟨m3, j1, j2⟩ := ih (fun u hu => hvs u (by simp [hu])) (acc ++ [(q.child, tab q.child)]) m2 k2 k3 k4
      refine ⟨m3, ?_, j2⟩
      rw [List.foldlM_cons]
      simp only [k1, ok_bind]
      refine j1.trans ?_
      simp
  obtain ⟨m2, k1, k2⟩ := key (childrenOf f) (fun _ h => h) [] m1 h (Same.refl m1) rfl
  refine ⟨tab, m2, h1, ?_, k2⟩
  unfold writtenTables
  rw [hm, ok_bind, h.children]
  exact k1

/-- a model made from a file and used is idle after `reset_model` -/
theorem idle_reset (ptr : Nat) {f : NetFile K} (hf : f.Valid) {hist : List (Op K)} (hh : ∀ op ∈ hist, op.Valid f.net) :
    ∃ m m1, NetFile.runFile ptr f hist = ok m ∧ m.reset = ok m1 ∧ Idle f m1 := by
  obtain ⟨m, g1, g3, g2⟩ := runFile_spec ptr hf hh
  obtain ⟨mb, b1, b2, b3, _, _, _, _, b8⟩ := build_parts ptr hf
  have hk := (g2 mb b1).1
  obtain ⟨r1, r2, r3⟩ := reset_spec g3.sound (fun v hv => by rw [(g3.told.lik v hv).1]; exact (g3.told.lik v hv).2.1)
  have hk := hk.trans r2
  refine ⟨m, _, g1, r1, r3, fun v => by rw [hk.parents, (b3 v).1, givens_eq], ?_⟩
  intro c x
  rw [origOf_skel hk.skel, b8]
  have : home (resetState f.net m).tree = home (K := K) mb.tree := by
    funext q d
    unfold home
    rw [findClique_skel hk.skel]
  unfold tablesProd residents
  rw [this]

end Model

end Nip
