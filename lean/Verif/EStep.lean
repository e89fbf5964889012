import Verif.MStep
import Verif.Likelihood

/-! # The expectation step of learning -/

namespace Nip

open Res Spec Model

set_option linter.unusedSectionVars false

variable {K : Type} [Field K] [LinearOrder K] [IsStrictOrderedRing K]

/-- tables of the right shapes, one for each variable -/
structure Shaped (f : NetFile K) (rs : List (Potential K)) : Prop where
  length : rs.length = f.vars.length
  shape : ∀ (i v : Nat) (p : Potential K), f.vars[i]? = some v → rs[i]? = some p → TableOn f.card (v :: f.givens v) p

theorem _root_.Nip.Spec.CountTables.shaped {f : NetFile K} {ps : List (Potential K)} (h : CountTables f ps) : Shaped f ps :=
  ⟨h.length, fun i v p hv hp => TableOn.ofFor (h.shape i v p hv hp)⟩

theorem Shaped.set {f : NetFile K} {rs : List (Potential K)} (h : Shaped f rs) {i v : Nat} {p : Potential K} (hv : f.vars[i]? = some v)
    (hp : TableOn f.card (v :: f.givens v) p) : Shaped f (rs.set i p) := by
  refine ⟨by rw [List.length_set]; exact h.length, ?_⟩
  intro j u q hu hq
  rw [List.getElem?_set] at hq
  split at hq
  · rename_i e
    subst e
    split at hq
    · simp only [Option.some.injEq] at hq
      rw [hv] at hu
      simp only [Option.some.injEq] at hu
      subst hu; subst hq; exact hp
    · cases hq
  · exact h.shape j u q hu hq

open Classical in
/-- the weight of the assignments in which a family is in given states -/
noncomputable def famSum (f : NetFile K) (T : Asg → K) (v : Nat) (cell : List Nat) : K :=
  sumOver f.card f.vars (fun z => if f.cell v z = cell then T z else 0) (fun _ => 0)

/-- the marginal of a family -/
theorem famSum_eq {f : NetFile K} (hf : f.Valid) (T : Asg → K) {v : Nat} (hv : v ∈ f.vars) {cell : List Nat}
    (hc : InRange ((v :: f.givens v).map f.card) cell) : ∃ y : Asg, states f.card (v :: f.givens v) y = cell ∧
      sumOver f.card (without f.vars (v :: f.givens v)) T y = famSum f T v cell := by
  classical
  obtain ⟨x, e1, e2⟩ := exists_states (cell_nodup hf v) hc
  obtain ⟨y, hy⟩ : ∃ y : Asg, y = fun u => if u ∈ v :: f.givens v then x u else 0 := ⟨_, rfl⟩
  have hyx : ∀ u ∈ v :: f.givens v, y u = x u := fun u hu => by rw [hy]; exact if_pos hu
  have hst : states f.card (v :: f.givens v) y = cell := by
    rw [← e1]; unfold states
    exact List.map_congr_left fun u hu => by rw [hyx u hu]
  refine ⟨y, hst, ?_⟩
  have hnd : f.vars.Nodup := hf.sorted.imp ne_of_lt
  refine (sumOver_fix hnd (cell_nodup hf v) (cell_sub hf hv) (fun u hu => by rw [hyx u hu]; exact e2 u hu)
    (fun u hu => by rw [hy]; exact if_neg hu) T).trans ?_
  unfold famSum
  refine sumOver_congr' fun z => ?_
  have : (∀ u ∈ v :: f.givens v, z u = y u) ↔ f.cell v z = cell := by
    have hcy : f.cell v y = cell := by
      rw [← hst]
      unfold NetFile.cell
      show (v :: f.givens v).map y = _
      unfold states
      exact List.map_congr_left fun u hu => by rw [hyx u hu, Nat.mod_eq_of_lt (e2 u hu)]
    rw [← hcy]
    show _ ↔ (v :: f.givens v).map z = (v :: f.givens v).map y
    exact (List.map_inj_left).symm
  simp only [this]

/-- the counts of one family -/
theorem countFamily_spec {f : NetFile K} (hf : f.Valid) {m : Model K} {w : World K} {T : Asg → K} (h : Carries f.net m w T)
    (ha : m.tree.Agrees f.net.card (m.tree.st f.net.card)) (hpar : ∀ v, (m.var v).parents = f.givens v) (hT : ∀ x, 0 ≤ T x)
    (hmass : sumOver f.card f.vars T (fun _ => 0) ≠ 0) {t i v : Nat} (hv : f.vars[i]? = some v) {params results : List (Potential K)}
    (hp : CountTables f params) (hr : Shaped f results) :
    ∃ m' params' results', countFamily t i (m, params, results) = ok (m', params', results') ∧ Keeps f.net m m' ∧ Carries f.net m' w T ∧
      m'.tree = m.tree ∧ CountTables f params' ∧ Shaped f results' ∧
      ∀ u cell, u ∈ f.vars → InRange ((u :: f.givens u).map f.card) cell → countsIn f params' u cell = countsIn f params u cell +
        if u = v ∧ ¬ (0 < t ∧ f.net.oldOut v = true) then famSum f T v cell / sumOver f.card f.vars T (fun _ => 0) else 0 := by
  have hvm : v ∈ f.vars := List.mem_of_getElem? hv
  have hvl : m.varList = f.vars := h.sound.vars
  unfold countFamily
  simp only
  rw [hvl, rd_eq_ok.mpr hv, ok_bind, h.sound.old]
  by_cases hskip : 0 < t ∧ f.net.oldOut v = true
  · rw [if_pos hskip]
    refine ⟨m, params, results, rfl, Keeps.refl _ m, h, rfl, hp, hr, ?_⟩
    intro u cell _ _
    rw [if_neg (fun h => h.2 hskip), add_zero]
  · rw [if_neg hskip]
    obtain ⟨c, f1, f2, f3, f4⟩ := findFamily_eq h.sound hvm
    obtain ⟨cl, hcl⟩ : ∃ cl, m.tree.cliques[c]? = some cl := ⟨_, List.getElem?_eq_getElem f3⟩
    have hvars := JTree.varsOf_eq hcl
    obtain ⟨n1, n2, n3⟩ := h.sound.typed.clq c cl hcl
    have hsub := findClique_sub f2
    rw [hpar] at hsub
    have hsub0 : ∀ u ∈ v :: f.givens v, u ∈ m.tree.varsOf c := by
      intro u hu
      rcases List.mem_cons.mp hu with rfl | hu
      · exact hsub _ (by simp)
      · exact hsub _ (by simp [hu])
    have hsub' : v :: f.givens v ⊆ cl.vars := by
      intro u hu; rw [← hvars]; exact hsub0 u hu
    have hmap := familyMapping_eq n1 (givens_spec hf v).1 (hsub' (List.mem_cons_self ..)) (fun u hu => hsub' (List.mem_cons_of_mem _ hu))
    have hil : i < f.vars.length := (List.getElem?_eq_some_iff.mp hv).1
    have hir : i < results.length := by rw [hr.length]; exact hil
    have hip : i < params.length := by rw [hp.length]; exact hil
    have hron := hr.shape i v _ hv (List.getElem?_eq_getElem hir)
    have hpon := hp.shaped.shape i v _ hv (List.getElem?_eq_getElem hip)
    have hlen : (v :: f.givens v).length ≤ cl.vars.length := ((cell_nodup hf v).subperm hsub').length_le
    have hg := Potential.generalMarginalise_ofFn n2.wf hron.wf (mapping := places cl.vars (v :: f.givens v))
      (by rw [n2.card_eq, hron.card_eq]; exact places_into hsub') (by rw [n2.card_eq, hron.card_eq]; simpa using hlen)
    obtain ⟨q, hq⟩ : ∃ q, q = Potential.ofFn results[i].card (fun y => sumTuples cl.p.card (fun x => project (places cl.vars (v :: f.givens v)) x = y) cl.p.at') :=
      ⟨_, rfl⟩
    rw [← hq] at hg
    have hqon : TableOn f.card (v :: f.givens v) q := by rw [hq, hron.card_eq]; exact ofFn_on hron.pos _
    have hqsem : ∀ x, sem f.card (v :: f.givens v) q x = sumOver f.card (without f.vars (v :: f.givens v)) T x := by
      intro x
      rw [hq, hron.card_eq, sem_ofFn hron.pos]
      refine Eq.trans (sumTuples_sem n1 hsub' n2 x) ?_
      have := h.part ha f3 (B := v :: f.givens v) hsub0 x
      have hphi : m.tree.phi f.net.card c = sem f.net.card cl.vars cl.p := by
        funext x; unfold JTree.phi; rw [hcl]
      rw [hphi, hvars] at this
      exact this
    have hqn : ∀ a ∈ q.data, 0 ≤ a := sem_data_nonneg (cell_nodup hf v) hqon (fun x => by rw [hqsem]; exact sumOver_nonneg hT _)
    have hqsum : q.data.sum = sumOver f.card f.vars T (fun _ => 0) := by
      rw [data_sum (cell_nodup hf v) hqon (fun _ => 0), sumOver_congr' hqsem, ← sumOver_append]
      refine sumOver_perm ?_ _ _
      have hnd : f.vars.Nodup := hf.sorted.imp ne_of_lt
      rw [List.perm_ext_iff_of_nodup _ hnd]
      · intro u
        rw [List.mem_append, mem_without]
        constructor
        · rintro (hu | hu)
          · exact cell_sub hf hvm u hu
          · exact hu.1
        · intro hu
          by_cases e : u ∈ v :: f.givens v
          · exact Or.inl e
          · exact Or.inr ⟨hu, e⟩
      · refine List.nodup_append.mpr ⟨cell_nodup hf v, hnd.filter _, ?_⟩
        intro a ha b hb e
        subst e
        exact (mem_without.mp hb).2 ha
    obtain ⟨r, hr'⟩ : ∃ r : Potential K, r = { q with data := q.data.map (· / q.data.sum) } := ⟨_, rfl⟩
    have hnorm : q.normalise = ok r := by
      unfold Potential.normalise
      have : q.size = q.data.length := rfl
      rw [this, Props.normaliseArray_full, ok_bind, if_neg (by rw [hqsum]; exact hmass), hr']
    have hron' : TableOn f.card (v :: f.givens v) r := by
      rw [hr']
      exact ⟨⟨by simp only [List.length_map]; exact hqon.wf.1, hqon.wf.2⟩, hqon.card_eq⟩
    have hrat : ∀ cell, InRange ((v :: f.givens v).map f.card) cell → r.at' cell = famSum f T v cell / sumOver f.card f.vars T (fun _ => 0) := by
      intro cell hc
      obtain ⟨y, y1, y2⟩ := famSum_eq hf T hvm hc
      rw [← y2, ← hqsem, ← hqsum, hr']
      unfold sem
      rw [y1]
      unfold Potential.at' cellOf
      simp only
      rw [← hqon.card_eq] at hc
      have hl := position_lt hc
      rw [← hqon.wf.1] at hl
      rw [List.getD_eq_getElem _ _ (by simpa using hl), List.getD_eq_getElem _ _ hl, List.getElem_map]
    have hrn : ∀ a ∈ r.data, 0 ≤ a := by
      rw [hr']
      intro a ha
      obtain ⟨b, hb, rfl⟩ := List.mem_map.mp ha
      exact div_nonneg (hqn b hb) (List.sum_nonneg hqn)
    obtain ⟨s, hs⟩ : ∃ s, s = Potential.ofFn params[i].card (fun x => params[i].at' x + r.at' x) := ⟨_, rfl⟩
    have hsum : Potential.sumInto params[i] r = ok (0, s) := by
      rw [hs]; exact Potential.sumInto_ofFn hpon.wf hron'.wf (by rw [hron'.card_eq, hpon.card_eq])
    have hson : TableOn f.card (v :: f.givens v) s := by rw [hs, hpon.card_eq]; exact ofFn_on hpon.pos _
    have hsat : ∀ cell, InRange ((v :: f.givens v).map f.card) cell → s.at' cell = params[i].at' cell + r.at' cell := by
      intro cell hc
      rw [hs, hpon.card_eq]; exact Potential.ofFn_at' _ hc
    have hsn : ∀ a ∈ s.data, 0 ≤ a := by
      refine sem_data_nonneg (cell_nodup hf v) hson (fun x => ?_)
      have := hson.inRange x
      rw [hson.card_eq] at this
      unfold sem
      rw [hsat _ this]
      exact add_nonneg (sem_nonneg (hp.nonneg _ (List.getElem_mem _)) _ _ _) (sem_nonneg hrn _ _ _)
    have hct : CountTables f (params.set i s) := by
      have := hp.shaped.set hv hson
      refine ⟨this.length, fun j u p hu hp => (this.shape j u p hu hp).for, ?_⟩
      intro p hpm
      rcases List.mem_or_eq_of_mem_set hpm with hpm | rfl
      · exact hp.nonneg p hpm
      · exact hsn
    refine ⟨m.memo v c, params.set i s, results.set i r, ?_, memo_keeps hvm, h.memo f2, rfl, hct, hr.set hv hron', ?_⟩
    · rw [f1, ok_bind]
      simp only
      have htree : (m.memo v c).tree = m.tree := rfl
      rw [htree, rd_eq_ok.mpr hcl, ok_bind, (memo_same m v c).parents, hpar, hmap, ok_bind, rd_lt hir, ok_bind, hg, ok_bind]
      simp only
      rw [hnorm, ok_bind, wr_lt hir, ok_bind, rd_lt hip, ok_bind, hsum, ok_bind]
      simp only
      rw [wr_lt hip, ok_bind]
    · intro u cell hu hc
      obtain ⟨j, hj⟩ := List.mem_iff_getElem?.mp hu
      have hjl : j < params.length := by rw [hp.length]; exact (List.getElem?_eq_some_iff.mp hj).1
      by_cases e : u = v
      · subst e
        have hij : i = j := by
          have hnd : f.vars.Nodup := hf.sorted.imp ne_of_lt
          rw [← idxOf_at hnd hv, ← idxOf_at hnd hj]
        subst hij
        rw [if_pos ⟨rfl, hskip⟩, countsIn_at hf hv (List.getElem?_set_self hip), countsIn_at hf hv (List.getElem?_eq_getElem hip), hsat cell hc, hrat cell hc]
      · have hij : i ≠ j := by
          rintro rfl
          rw [hv] at hj; simp only [Option.some.injEq] at hj; exact e hj.symm
        rw [if_neg (fun h => e h.1), add_zero, countsIn_at hf hj (List.getElem?_eq_getElem hjl),
          countsIn_at hf hj (by rw [List.getElem?_set_ne hij]; exact List.getElem?_eq_getElem hjl)]

/-- the counts of all families -/
theorem countFamilies_spec {f : NetFile K} (hf : f.Valid) {m : Model K} {w : World K} {T : Asg → K} (h : Carries f.net m w T)
    (ha : m.tree.Agrees f.net.card (m.tree.st f.net.card)) (hpar : ∀ v, (m.var v).parents = f.givens v) (hT : ∀ x, 0 ≤ T x)
    (hmass : sumOver f.card f.vars T (fun _ => 0) ≠ 0) (t : Nat) {params results : List (Potential K)}
    (hp : CountTables f params) (hr : Shaped f results) :
    ∃ m' params' results', countFamilies t (m, params, results) = ok (m', params', results') ∧ Keeps f.net m m' ∧ Carries f.net m' w T ∧
      m'.tree = m.tree ∧ CountTables f params' ∧ Shaped f results' ∧
      ∀ u cell, u ∈ f.vars → InRange ((u :: f.givens u).map f.card) cell → countsIn f params' u cell = countsIn f params u cell +
        if ¬ (0 < t ∧ f.net.oldOut u = true) then famSum f T u cell / sumOver f.card f.vars T (fun _ => 0) else 0 := by
  have hnd : f.vars.Nodup := hf.sorted.imp ne_of_lt
  obtain ⟨⟨m', params', results'⟩, e1, e2, e3, e4, e5, e6, e7⟩ := loop_inv (n := f.vars.length) (s := (m, params, results)) (f := countFamily t)
    (fun i (st : Model K × List (Potential K) × List (Potential K)) => Keeps f.net m st.1 ∧ Carries f.net st.1 w T ∧ st.1.tree = m.tree ∧
      CountTables f st.2.1 ∧ Shaped f st.2.2 ∧ ∀ u cell, u ∈ f.vars → InRange ((u :: f.givens u).map f.card) cell →
        countsIn f st.2.1 u cell = countsIn f params u cell +
        if f.vars.idxOf u < i ∧ ¬ (0 < t ∧ f.net.oldOut u = true) then famSum f T u cell / sumOver f.card f.vars T (fun _ => 0) else 0)
    ⟨Keeps.refl _ m, h, rfl, hp, hr, fun u cell _ _ => by simp⟩
    (by
      rintro i hi ⟨m1, ps, rs⟩ ⟨k1, k2, k3, k4, k5, k6⟩
      have hv : f.vars[i]? = some f.vars[i] := List.getElem?_eq_getElem hi
      obtain ⟨m2, ps', rs', g1, g2, g3, g4, g5, g6, g7⟩ := countFamily_spec hf k2 (by rw [k3]; exact ha)
        (fun v => (k1.1.parents v).trans (hpar v)) hT hmass (t := t) hv k4 k5
      refine ⟨(m2, ps', rs'), g1, k1.trans g2, g3, g4.trans k3, g5, g6, ?_⟩
      intro u cell hu hc
      simp only at k6 ⊢
      rw [g7 u cell hu hc, k6 u cell hu hc, add_assoc]
      congr 1
      by_cases e : u = f.vars[i]
      · have hidx : f.vars.idxOf u = i := idxOf_at hnd (by rw [e]; exact hv)
        rw [if_neg (by rw [hidx]; omega), zero_add]
        subst e
        rw [hidx]
        simp only [true_and, Nat.lt_succ_self]
      · rw [if_neg (c := u = f.vars[i] ∧ _) (fun h => e h.1), add_zero]
        have hidx : f.vars.idxOf u ≠ i := by
          intro h
          obtain ⟨j, hj⟩ := List.mem_iff_getElem?.mp hu
          rw [idxOf_at hnd hj] at h
          subst h
          rw [hv] at hj
          simp only [Option.some.injEq] at hj
          exact e hj.symm
        have : f.vars.idxOf u < i ↔ f.vars.idxOf u < i + 1 := by omega
        simp only [this])
  refine ⟨m', params', results', ?_, e2, e3, e4, e5, e6, ?_⟩
  · unfold countFamilies
    have : m.varList = f.vars := h.sound.vars
    simp only [this]
    exact e1
  · intro u cell hu hc
    have := e7 u cell hu hc
    rw [this]
    congr 1
    have hidx : f.vars.idxOf u < f.vars.length := List.idxOf_lt_length_of_mem hu
    simp only [hidx, true_and]

/-- fresh tables -/
theorem newResults_spec {f : NetFile K} {params : List (Potential K)} (h : Shaped f params) : ∃ rs, newResults params = ok rs ∧ Shaped f rs := by
  have key : ∀ (ps acc : List (Potential K)), ps.foldlM (fun (rs : List (Potential K)) p => do
      let r : Option (Potential K) ← Potential.new p.card (p.dim : Int) none
      match r with
      | some r => ok (rs ++ [r])
      | none => ub) acc = ok (acc ++ ps.map (fun p => ⟨p.card, List.replicate p.card.prod 1⟩)) := by
    intro ps
    induction ps with
    | nil => intro acc; simp [List.foldlM_nil]
    | cons p ps ih =>
      intro acc
      rw [List.foldlM_cons]
      have hn : Potential.new (K := K) p.card (p.dim : Int) none = ok (some ⟨p.card, List.replicate p.card.prod 1⟩) := by
        unfold Potential.new
        rw [if_neg (by omega)]
        have hl : (p.dim : Int).toNat = p.card.length := by simp [Potential.dim]
        simp only [hl]
        rw [Potential.sizeOf_eq _ (le_refl _)]
        simp only [ok_bind, List.take_length]
      rw [hn]
      simp only [ok_bind]
      refine (ih _).trans ?_
      simp
  refine ⟨_, (key params []).trans (by rw [List.nil_append]), by rw [List.length_map]; exact h.length, ?_⟩
  intro i v p hv hp
  rw [List.getElem?_map] at hp
  obtain ⟨q, hq, rfl⟩ := Option.map_eq_some_iff.mp hp
  have := h.shape i v q hv hq
  exact ⟨⟨by simp, this.wf.2⟩, this.card_eq⟩

/-- entering the data of a slice -/
theorem weighStep_spec {f : NetFile K} (hf : f.Valid) {ts : TimeSeries} (hts : About f ts) (marked : Nat → Bool) (g : Logs K) {t : Nat} (ht : t < ts.length)
    {m : Model K} {a : Potential K} (h : Model.Carries f.net m (slateOf f.net (decide (0 < t))) (before f t a)) (ll : K) :
    ∃ m' w m1 m2 ll', weighStep g marked ts t (m, ll) = ok (decide (¬ (m1 ≤ 0 ∨ m2 ≤ 0 ∨ 0 < ll')), m', ll') ∧
      m1 = sumOver f.card f.vars (before f t a) (fun _ => 0) ∧ m2 = sumOver f.card f.vars (within f (tsSees marked ts) t a) (fun _ => 0) ∧
      ll' = (if 0 < m1 ∧ 0 < m2 then ll + (g.log m2 - g.log m1) else ll) ∧ Model.Keeps f.net m m' ∧
      Model.Carries f.net m' w (within f (tsSees marked ts) t a) ∧ m'.tree.Agrees f.net.card (m'.tree.st f.net.card) := by
  obtain ⟨n1, c1, c2, c3, c4⟩ := h.consistent
  obtain ⟨n2, d1, d2, d3, d4⟩ := c3.mass c4 (fun _ => 0)
  obtain ⟨n3, i1, i2, i3⟩ := d3.insert (net_local hf) hts.wf hts.nodup hts.sub marked (slate_evidence _ _) ht
  obtain ⟨n4, k1, k2, k3, k4⟩ := i3.consistent
  obtain ⟨n5, e1, e2, e3, e4⟩ := k3.mass k4 (fun _ => 0)
  refine ⟨n5, _, _, _, _, ?_, rfl, rfl, rfl, c2.trans (d2.trans (i2.trans (k2.trans e2))), e3, e4⟩
  unfold weighStep
  simp only
  rw [c1, ok_bind, d1, ok_bind]
  simp only
  rw [i1, ok_bind]
  simp only
  rw [k1, ok_bind, e1, ok_bind]
  rfl

/-- the log likelihood of what is seen -/
noncomputable def logs (f : NetFile K) (g : Logs K) (seen : Nat → Nat → Int) (n : Nat) : K := ∑ t ∈ Finset.range n, g.log (f.evidenceProb seen t)

theorem list_prod_mono {l : List Nat} {p q : Nat → K} (h0 : ∀ v ∈ l, 0 ≤ p v) (h : ∀ v ∈ l, p v ≤ q v) : (l.map p).prod ≤ (l.map q).prod := by
  induction l with
  | nil => exact le_refl _
  | cons v l ih =>
    rw [List.map_cons, List.map_cons, List.prod_cons, List.prod_cons]
    refine mul_le_mul (h v (List.mem_cons_self ..)) (ih (fun u hu => h0 u (List.mem_cons_of_mem _ hu)) (fun u hu => h u (List.mem_cons_of_mem _ hu)))
      (list_prod_nonneg ?_) ((h0 v (List.mem_cons_self ..)).trans (h v (List.mem_cons_self ..)))
    intro a ha
    obtain ⟨u, hu, rfl⟩ := List.mem_map.mp ha
    exact h0 u (List.mem_cons_of_mem _ hu)

theorem vision_le (card : Nat → Nat) (seen : Nat → Int) (v i : Nat) : (vision (K := K) card seen v).getD i 0 ≤ (vision (K := K) card (fun _ => -1) v).getD i 0 := by
  rw [vision_unseen (seen := fun _ => -1) (by decide)]
  unfold vision
  split
  · exact le_refl _
  · unfold indicator
    by_cases hi : i < card v
    · rw [getD_ones hi, List.getD_eq_getElem _ _ (by simpa using hi)]
      simp only [List.getElem_map, List.getElem_range]
      split
      · exact le_refl _
      · exact zero_le_one
    · rw [List.getD_eq_default _ _ (by simpa using hi), List.getD_eq_default _ _ (by simpa using hi)]

/-- data make nothing more likely -/
theorem slice_hide_le {f : NetFile K} (hf : f.Valid) (seen : Nat → Nat → Int) (t : Nat) (x : Asg) : slice f seen t x ≤ slice f (hide seen t) t x := by
  unfold slice
  rw [hide_self]
  unfold NetFile.sliceWeight weightOf
  refine mul_le_mul_of_nonneg_left ?_ (mul_nonneg ?_ ?_)
  · exact list_prod_mono (fun v _ => getD_nonneg (vision_nonneg _ _ _) _) (fun v _ => vision_le _ _ _ _)
  · refine list_prod_nonneg ?_
    intro a ha
    obtain ⟨q, hq, rfl⟩ := List.mem_map.mp ha
    exact getD_nonneg (hf.nonneg q (List.mem_filter.mp hq).1) _
  · refine list_prod_nonneg ?_
    intro a ha
    obtain ⟨v, hv, rfl⟩ := List.mem_map.mp ha
    simp only
    split
    · exact getD_nonneg (prior_nonneg hf v) _
    · exact zero_le_one

theorem total_hide_le {f : NetFile K} (hf : f.Valid) (seen : Nat → Nat → Int) (t : Nat) : total f seen (t + 1) ≤ total f (hide seen t) (t + 1) := by
  rw [total_succ, total_succ]
  refine sumOver_mono (fun z => ?_) _
  rw [fwd_seen (fun s hs => hide_lt seen hs)]
  exact mul_le_mul_of_nonneg_right (slice_hide_le hf seen t z) (fwd_nonneg hf seen t z)

theorem evidence_pos {f : NetFile K} (hf : f.Valid) {seen : Nat → Nat → Int} {t : Nat} (h : total f seen (t + 1) ≠ 0) :
    0 < f.evidenceProb seen t ∧ f.evidenceProb seen t ≤ 1 := by
  have h1 : 0 < total f seen (t + 1) := lt_of_le_of_ne (total_nonneg hf seen _) (Ne.symm h)
  have h2 := total_hide_le hf seen t
  exact ⟨div_pos h1 (h1.trans_le h2), (div_le_one (h1.trans_le h2)).mpr h2⟩

theorem logs_small {f : NetFile K} (hf : f.Valid) {g : Logs K} (hg : ∀ a, 0 < a → a ≤ 1 → g.log a ≤ 0) (seen : Nat → Nat → Int) (n : Nat)
    (h : total f seen n ≠ 0) : logs f g seen n ≤ 0 := by
  refine Finset.sum_nonpos fun t ht => ?_
  have := evidence_pos hf (total_prefix_le hf seen (t := t + 1) (by have := Finset.mem_range.mp ht; omega) h)
  exact hg _ this.1 this.2

/-- the state of the forward phase -/
def Weighing (f : NetFile K) (g : Logs K) (s : Interface) (m0 : Model K) (seen : Nat → Nat → Int) (n t : Nat) (st : Nat × Smoother K) : Prop :=
  Same m0 st.2.model ∧ ((st.1 = 0 ∧ Model.Holds f.net st.2.model (slateOf f.net (decide (0 < min t (n - 1)))) ∧
    Mail f seen n t st.2.messages ∧ total f seen t ≠ 0 ∧ st.2.ll = logs f g seen t) ∨
    (st.1 = NIP_ERROR_BAD_LUCK ∧ total f seen n = 0 ∧ ∃ w T, Model.Carries f.net st.2.model w T))

/-- one round of the forward phase -/
theorem countForward_spec {f : NetFile K} (hf : f.Valid) (htm : f.Temporal) {s : Interface} (hs : IsInterface f s) {ts : TimeSeries} (hts : About f ts)
    (marked : Nat → Bool) {g : Logs K} (hg : g.Law) (hsmall : ∀ t, t ≤ ts.length → total f (tsSees marked ts) t ≠ 0 → logs f g (tsSees marked ts) t ≤ 0)
    {m0 : Model K} (hi : InterfaceOk f.net m0 s) {t : Nat} (ht : t < ts.length) {st : Nat × Smoother K}
    (h : Weighing f g s m0 (tsSees marked ts) ts.length t st) :
    ∃ st', countForward g s marked ts t st = ok st' ∧ Weighing f g s m0 (tsSees marked ts) ts.length (t + 1) st' := by
  obtain ⟨hsame, h | h⟩ := h
  · obtain ⟨h0, h1, h2, h3, h4⟩ := h
    rw [show min t (ts.length - 1) = t by omega] at h1
    have hi1 : InterfaceOk f.net st.2.model s := hi.keep hsame.skel
    obtain ⟨a, ha0, ha, har⟩ := h2.read (le_refl t) ht
    have hat : TableOn f.card s.out a := by rw [hs.out]; exact ha.table
    obtain ⟨m1, a1, a2, a3⟩ := arrive hs h1 hi1 hat ha.nonneg
    obtain ⟨m2, w, b, c, ll, b1, b2, b3, b4, b5, b6, b7⟩ := weighStep_spec hf hts marked g ht a3 st.2.ll
    have hsame2 : Same m0 m2 := hsame.trans (a2.trans b5).1
    obtain ⟨d, d1, d2, d3⟩ := masses hf htm ha (fun _ => h3)
    unfold countForward
    rw [if_neg (by rw [h0]; simp), har, a1, ok_bind, b1, ok_bind]
    simp only
    by_cases htot : total f (tsSees marked ts) (t + 1) = 0
    · have hc : c = 0 := by rw [b3, d3, htot, mul_zero]
      rw [if_neg (by rw [hc]; simp)]
      refine ⟨_, rfl, hsame2, Or.inr ⟨rfl, ?_, w, _, b6⟩⟩
      by_contra hne
      exact total_prefix_le hf _ (by omega : t + 1 ≤ ts.length) hne htot
    · have hc : 0 < c := by rw [b3, d3]; exact mul_pos d1 (lt_of_le_of_ne (total_nonneg hf _ _) (Ne.symm htot))
      have hb : 0 < b := by rw [b2]; exact mass_before_pos hf ha.nonneg (by rw [← b3]; exact hc.ne')
      have hll : ll = logs f g (tsSees marked ts) (t + 1) := by
        rw [b4, if_pos ⟨hb, hc⟩, hg _ _ hc hb, b2, b3, d2, d3, mul_div_mul_left _ _ d1.ne', h4]
        unfold logs
        rw [Finset.sum_range_succ]
        rfl
      have hle := hsmall (t + 1) (by omega) htot
      rw [← hll] at hle
      rw [if_pos (decide_eq_true (by
        rintro (e | e | e)
        · exact absurd hb (not_lt.mpr e)
        · exact absurd hc (not_lt.mpr e)
        · exact absurd e (not_lt.mpr hle)))]
      have hi2 : InterfaceOk f.net m2 s := hi.keep hsame2.skel
      have hlt : t < st.2.messages.length := by rw [h2.length]; omega
      obtain ⟨a', g1, g2⟩ := depart hf htm hs (b := st.2.messages[t]) ha (by rw [hs.out]; exact h2.table _ (List.getElem_mem _)) b6 b7 hi2
      obtain ⟨w1, w2⟩ := h2.write ht g2
      obtain ⟨m4, m5, e1, e2, e3, e4⟩ := b6.prepare (decide (1 < ts.length))
      refine ⟨(0, { model := m5, messages := st.2.messages.set t a', ll := ll }), ?_, hsame2.trans e3, Or.inl ⟨rfl, ?_, w2, htot, hll⟩⟩
      · rw [rd_lt hlt, ok_bind, g1, ok_bind, w1, ok_bind, e1, ok_bind, e2, ok_bind]
      · rw [show decide (0 < min (t + 1) (ts.length - 1)) = decide (1 < ts.length) from by congr 1; exact propext (by omega)]
        exact e4
  · refine ⟨st, ?_, hsame, Or.inr h⟩
    unfold countForward
    rw [if_pos (by rw [h.1]; decide)]

open Classical in
/-- the counts of a slice -/
noncomputable def sliceCount (f : NetFile K) (seen : Nat → Nat → Int) (n v : Nat) (cell : List Nat) (t : Nat) : K :=
  if t = 0 ∨ f.next v = none then f.unrolledTotal seen n (fun X => f.cell v (X t) = cell) / total f seen n else 0

theorem expectedCount_eq (f : NetFile K) (seen : Nat → Nat → Int) (n v : Nat) (cell : List Nat) :
    f.expectedCount seen n v cell = ∑ t ∈ Finset.range n, sliceCount f seen n v cell t := by
  classical
  unfold NetFile.expectedCount sliceCount total
  rw [Finset.sum_filter]

/-- one round of the backward phase -/
theorem countBackward_spec {f : NetFile K} (hf : f.Valid) (htm : f.Temporal) {s : Interface} (hs : IsInterface f s) {ts : TimeSeries} (hts : About f ts)
    (marked : Nat → Bool) (htot : total f (tsSees marked ts) ts.length ≠ 0) {t : Nat} (ht : t < ts.length) {st : Counter K}
    (h : Model.Holds f.net st.model (slateOf f.net (decide (0 < t)))) (hi : InterfaceOk f.net st.model s) (hpar : ∀ v, (st.model.var v).parents = f.givens v)
    (hm : Post f (tsSees marked ts) ts.length t st.messages) (hp : CountTables f st.params) (hr : Shaped f st.results) :
    ∃ st', countBackward s marked ts t st = ok st' ∧ Model.Holds f.net st'.model (slateOf f.net (decide (0 < t - 1))) ∧ Same st.model st'.model ∧
      (0 < t → Post f (tsSees marked ts) ts.length (t - 1) st'.messages) ∧ CountTables f st'.params ∧ Shaped f st'.results ∧
      ∀ v cell, v ∈ f.vars → InRange ((v :: f.givens v).map f.card) cell →
        countsIn f st'.params v cell = countsIn f st.params v cell + sliceCount f (tsSees marked ts) ts.length v cell t := by
  classical
  obtain ⟨m1, w, a, g, b, a1, a2, a3, a4, ha, hg, hgm, hb⟩ := smoothAbsorb_spec hf hs hts marked ht h hi hm
  obtain ⟨k, hk⟩ : ∃ k, t + 1 + k = ts.length := ⟨ts.length - (t + 1), by omega⟩
  obtain ⟨d, d1, d2⟩ := around_spec hf htm hk ha hb (fun j hj => hm.gamma j g (by omega) hg) (fun _ => htot)
  have hnn := around_nonneg hf (tsSees marked ts) ts.length t ha.nonneg (hm.mail.nonneg g hgm) hb.nonneg
  have hmass : sumOver f.card f.vars (around f (tsSees marked ts) ts.length t a g b) (fun _ => 0) = d * total f (tsSees marked ts) ts.length := by
    rw [← hk, total_at, ← sumOver_const_mul]
    rw [← hk] at d2
    exact sumOver_legal (U := f.vars) (fun z hz => d2 z hz) _ _ (fun v hv hv' => absurd hv hv')
  obtain ⟨m2, ps, rs, c1, c2, c3, c4, c5, c6, c7⟩ := countFamilies_spec hf a3 a4 (fun v => (a2.1.parents v).trans (hpar v)) hnn
    (by rw [hmass]; exact mul_ne_zero d1.ne' htot) t hp hr
  have hi2 : InterfaceOk f.net m2 s := hi.keep ((a2.trans c2).1.skel)
  have hlen := hm.mail.length
  have hlt : t < st.messages.length := by omega
  obtain ⟨msgs', g1, g2⟩ : ∃ msgs', departBackward s t m2 st.messages = ok msgs' ∧ (0 < t → Post f (tsSees marked ts) ts.length (t - 1) msgs') := by
    unfold departBackward
    by_cases h0 : 0 < t
    · obtain ⟨t', rfl⟩ : ∃ t', t = t' + 1 := ⟨t - 1, by omega⟩
      have hbt : TableOn f.card s.out st.messages[t' + 1] := by rw [hs.out]; exact hm.mail.table _ (List.getElem_mem _)
      obtain ⟨g', e1, e2⟩ := recede (k := k) (t := t') (seen := tsSees marked ts) hf htm hs hbt hnn c3 (by rw [c4]; exact a4) hi2
        (fun _ => ⟨d, d1, d2⟩)
      refine ⟨st.messages.set (t' + 1) g', by rw [if_pos h0, rd_lt hlt, ok_bind, e1, ok_bind, wr_lt hlt], fun _ => ⟨⟨?_, ?_, ?_, ?_⟩, ?_⟩⟩
      · rw [List.length_set]; exact hlen
      · intro p hp
        rcases List.mem_or_eq_of_mem_set hp with hp | rfl
        · exact hm.mail.table p hp
        · exact e2.table
      · intro p hp
        rcases List.mem_or_eq_of_mem_set hp with hp | rfl
        · exact hm.mail.nonneg p hp
        · exact e2.nonneg
      · intro j p hj hp
        rw [List.getElem?_set_ne (by omega)] at hp
        exact hm.mail.alpha j p (by omega) hp
      · intro k' g'' hk' hg''
        rw [Nat.add_sub_cancel, List.getElem?_set_self hlt] at hg''
        cases hg''
        have : k' = k := by omega
        rw [this]
        exact e2
    · exact ⟨st.messages, by rw [if_neg h0], fun h => absurd h h0⟩
  obtain ⟨m4, m5, e1, e2, e3, e4⟩ := c3.prepare (decide (1 < t))
  refine ⟨{ model := m5, messages := msgs', params := ps, results := rs }, ?_, ?_, (a2.trans c2).1.trans e3, g2, c5, c6, ?_⟩
  · unfold countBackward smoothLeave
    rw [a1, ok_bind, c1, ok_bind]
    simp only
    rw [g1]
    simp only [ok_bind]
    rw [e1, ok_bind, e2, ok_bind]
    rfl
  · rw [show decide (0 < t - 1) = decide (1 < t) from by congr 1; exact propext (by omega)]
    exact e4
  · intro v cell hv hc
    refine (c7 v cell hv hc).trans ?_
    congr 1
    unfold sliceCount
    have hcond : ¬ (0 < t ∧ f.net.oldOut v = true) ↔ (t = 0 ∨ f.next v = none) := by
      rw [oldOut_iff htm hv]
      by_cases h0 : t = 0
      · simp [h0]
      · by_cases h1 : f.next v = none
        · simp [h1]
        · simp [h0, h1]
    simp only [hcond]
    split
    · rw [hmass]
      have hfs : famSum f (around f (tsSees marked ts) ts.length t a g b) v cell =
          d * f.unrolledTotal (tsSees marked ts) ts.length (fun X => f.cell v (X t) = cell) := by
        rw [← hk, unrolledTotal_eq f (tsSees marked ts) t k (fun x => f.cell v x = cell), ← sumOver_const_mul]
        unfold famSum
        refine sumOver_legal (U := f.vars) (fun z hz => ?_) _ _ (fun v hv hv' => absurd hv hv')
        rw [← hk] at d2
        split
        · exact d2 z hz
        · rw [mul_zero]
      rw [hfs, mul_div_mul_left _ _ d1.ne']
    · rfl

/-- the expectation step -/
theorem eStep_spec {f : NetFile K} (hf : f.Valid) (htm : f.Temporal) {s : Interface} (hs : IsInterface f s) {ts : TimeSeries} (hts : About f ts)
    (marked : Nat → Bool) {g : Logs K} (hg : g.Law) (hsmall : ∀ t, t ≤ ts.length → total f (tsSees marked ts) t ≠ 0 → logs f g (tsSees marked ts) t ≤ 0)
    {m : Model K} {w : World K} {T : Asg → K} (h : Model.Carries f.net m w T) (hi : InterfaceOk f.net m s) (hpar : ∀ v, (m.var v).parents = f.givens v)
    {params : List (Potential K)} (hp : CountTables f params) :
    ∃ code params' ll m', eStep g s marked ts params m = ok (code, params', ll, m') ∧ Same m m' ∧
      (total f (tsSees marked ts) ts.length ≠ 0 → code = 0 ∧ ll = logs f g (tsSees marked ts) ts.length ∧ CountTables f params' ∧
        (∃ w', Model.Holds f.net m' w') ∧ ∀ v cell, v ∈ f.vars → InRange ((v :: f.givens v).map f.card) cell →
          countsIn f params' v cell = countsIn f params v cell + f.expectedCount (tsSees marked ts) ts.length v cell) ∧
      (total f (tsSees marked ts) ts.length = 0 → code = NIP_ERROR_BAD_LUCK ∧ params' = params ∧ ∃ w' T', Model.Carries f.net m' w' T') := by
  obtain ⟨rs, r1, r2⟩ := newResults_spec hp.shaped
  obtain ⟨a, n1, n2⟩ := newMessage_spec hf htm hs h.sound.card (tsSees marked ts)
  obtain ⟨m1, m2, p1, p2, p3, p4⟩ := h.prepare false
  have hmail : Mail f (tsSees marked ts) ts.length 0 (List.replicate (ts.length + 1) a) := by
    refine ⟨List.length_replicate, ?_, ?_, fun j _ hj => absurd hj (Nat.not_lt_zero j)⟩
    · intro b hb; rw [(List.mem_replicate.mp hb).2]; exact n2.table
    · intro b hb; rw [(List.mem_replicate.mp hb).2]; exact n2.nonneg
  obtain ⟨st, e1, e2, e3⟩ := loop_inv (n := ts.length) (s := (0, ({ model := m2, messages := List.replicate (ts.length + 1) a, ll := 0 } : Smoother K)))
    (f := countForward g s marked ts) (Weighing f g s m (tsSees marked ts) ts.length)
    ⟨p3, Or.inl ⟨rfl, by rw [show decide (0 < min 0 (ts.length - 1)) = false by simp]; exact p4, hmail, by rw [total_zero]; exact one_ne_zero, by simp [logs]⟩⟩
    (fun t ht st hw => countForward_spec hf htm hs hts marked hg hsmall hi ht hw)
  obtain ⟨code, sm⟩ := st
  simp only at e2 e3
  rcases e3 with ⟨h0, h1, h2, h3, h4⟩ | ⟨h0, h1, w', T', h2⟩
  · subst h0
    rw [show min ts.length (ts.length - 1) = ts.length - 1 by omega] at h1
    obtain ⟨c, q1, q2, q3, _, q4, _, q5⟩ := loopDown_inv (n := ts.length)
      (s := ({ model := sm.model, messages := sm.messages, params := params, results := rs } : Counter K)) (f := countBackward s marked ts)
      (fun t (q : Counter K) => Model.Holds f.net q.model (slateOf f.net (decide (0 < t - 1))) ∧ Same m q.model ∧
        (0 < t → Post f (tsSees marked ts) ts.length (t - 1) q.messages) ∧ CountTables f q.params ∧ Shaped f q.results ∧
        ∀ v cell, v ∈ f.vars → InRange ((v :: f.givens v).map f.card) cell →
          countsIn f q.params v cell = countsIn f params v cell + ∑ j ∈ (Finset.range ts.length).filter (fun j => t ≤ j), sliceCount f (tsSees marked ts) ts.length v cell j)
      ⟨h1, e2, fun h0 => ⟨by rw [Nat.sub_add_cancel h0]; exact h2, fun k g hk => by omega⟩, hp, r2, by
        intro v cell _ _
        rw [Finset.filter_false_of_mem (by intro j hj; simp at hj; omega), Finset.sum_empty, add_zero]⟩
      (by
        rintro t ht q ⟨k1, k2, k3, k4, k5, k6⟩
        obtain ⟨q', g1, g2, g3, g4, g5, g6, g7⟩ := countBackward_spec hf htm hs hts marked h3 ht k1 (hi.keep k2.skel)
          (fun v => (k2.parents v).trans (hpar v)) (k3 (Nat.succ_pos t)) k4 k5
        refine ⟨q', g1, g2, k2.trans g3, g4, g5, g6, ?_⟩
        intro v cell hv hc
        rw [g7 v cell hv hc, k6 v cell hv hc, add_assoc]
        congr 1
        have : (Finset.range ts.length).filter (fun j => t ≤ j) = insert t ((Finset.range ts.length).filter (fun j => t + 1 ≤ j)) := by
          ext j
          simp only [Finset.mem_filter, Finset.mem_range, Finset.mem_insert]
          omega
        rw [this, Finset.sum_insert (by simp), add_comm])
    refine ⟨0, c.params, sm.ll, c.model, ?_, q3, fun _ => ⟨rfl, h4, q4, ⟨_, q2⟩, ?_⟩, fun h => absurd h h3⟩
    · unfold eStep newMessages
      rw [r1, ok_bind, n1]
      simp only [ok_bind]
      rw [p1, ok_bind, p2, ok_bind, e1, ok_bind]
      simp only [ne_eq, not_true, if_false]
      rw [q1, ok_bind]
    · intro v cell hv hc
      rw [q5 v cell hv hc, expectedCount_eq]
      simp
  · refine ⟨code, params, sm.ll, sm.model, ?_, e2, fun h => absurd h1 h, fun _ => ⟨h0, rfl, w', T', h2⟩⟩
    unfold eStep newMessages
    rw [r1, ok_bind, n1]
    simp only [ok_bind]
    rw [p1, ok_bind, p2, ok_bind, e1, ok_bind]
    simp only
    rw [if_pos (by rw [h0]; decide)]

end Nip
