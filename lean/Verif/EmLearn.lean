import Verif.EStep

/-! # The rounds of learning -/

namespace Nip

open Res Spec Model

set_option linter.unusedSectionVars false

variable {K : Type} [Field K] [LinearOrder K] [IsStrictOrderedRing K]

/-- what is seen in the series -/
noncomputable def evidenceOf (marked : Nat → Bool) (series : List TimeSeries) : Evidence := series.map (fun ts => (ts.length, tsSees marked ts))

/-! ### networks with the same variables and parents -/

/-- the table made of counts depends on the counts of legal states only -/
theorem learned_congr {f : NetFile K} (hf : f.Valid) {c c' : Nat → List Nat → K} {v : Nat} (hv : v ∈ f.vars)
    (h : ∀ cell, InRange ((v :: f.givens v).map f.card) cell → c v cell = c' v cell) : f.learnedTable c v = f.learnedTable c' v := by
  unfold NetFile.learnedTable
  simp only [Parsed.mk.injEq, Potential.mk.injEq, true_and]
  apply List.map_congr_left
  intro idx hidx
  have hfam : (f.vars.filter (fun u => decide (u = v ∨ u ∈ f.givens v))) = famOrder f v := rfl
  rw [hfam] at hidx ⊢
  have hin : InRange ((famOrder f v).map f.card) idx := mem_tuples.mp hidx
  have hlt : ∀ u ∈ v :: f.givens v, idx.getD ((famOrder f v).idxOf u) 0 < f.card u := by
    intro u hu
    have hm := (mem_famOrder hf hv).mpr hu
    have hlen : idx.length = (famOrder f v).length := by simpa using hin.length_eq
    have hi : (famOrder f v).idxOf u < (famOrder f v).length := List.idxOf_lt_length_of_mem hm
    have := List.Forall₂.get hin (i := (famOrder f v).idxOf u) (by rw [hlen]; exact hi) (by simpa using hi)
    rw [List.getD_eq_getElem _ _ (by rw [hlen]; exact hi)]
    simpa using this
  have hcell : ∀ j, j < f.card v → InRange ((v :: f.givens v).map f.card) (j :: (f.givens v).map (fun u => idx.getD ((famOrder f v).idxOf u) 0)) := by
    intro j hj
    refine List.Forall₂.cons hj ?_
    rw [List.forall₂_map_left_iff, List.forall₂_map_right_iff, List.forall₂_same]
    exact fun u hu => hlt u (List.mem_cons_of_mem _ hu)
  unfold estimate NetFile.cell
  rw [h _ (hcell _ (hlt v (List.mem_cons_self ..)))]
  congr 1
  exact Finset.sum_congr rfl fun j hj => h _ (hcell j (Finset.mem_range.mp hj))

theorem relearn_congr {f : NetFile K} (hf : f.Valid) {c c' : Nat → List Nat → K}
    (h : ∀ v ∈ f.vars, ∀ cell, InRange ((v :: f.givens v).map f.card) cell → c v cell = c' v cell) : f.relearn c = f.relearn c' := by
  unfold NetFile.relearn
  rw [List.map_congr_left fun v hv => learned_congr hf hv (h v hv)]

theorem relearn_relearn {f : NetFile K} (hf : f.Valid) (c c' : Nat → List Nat → K) : (f.relearn c).relearn c' = f.relearn c' := by
  have hg := relearn_givens hf c
  show ({ f with pots := f.vars.map ((f.relearn c).learnedTable c') } : NetFile K) = { f with pots := f.vars.map (f.learnedTable c') }
  congr 1
  apply List.map_congr_left
  intro v _
  unfold NetFile.learnedTable NetFile.cell
  rw [hg]
  rfl

/-- the file itself, or with other tables -/
def Variant (f h : NetFile K) : Prop := h = f ∨ ∃ c, (∀ v cell, 0 ≤ c v cell) ∧ h = f.relearn c

theorem Variant.valid {f h : NetFile K} (k : Variant f h) (hf : f.Valid) : h.Valid := by
  rcases k with rfl | ⟨c, hc, rfl⟩
  · exact hf
  · exact relearn_valid hf hc

theorem Variant.temporal {f h : NetFile K} (k : Variant f h) (hf : f.Valid) (ht : f.Temporal) : h.Temporal := by
  rcases k with rfl | ⟨c, _, rfl⟩
  · exact ht
  · exact relearn_temporal hf c ht

theorem Variant.vars {f h : NetFile K} (k : Variant f h) : h.vars = f.vars := by
  rcases k with rfl | ⟨c, _, rfl⟩ <;> rfl

theorem Variant.card {f h : NetFile K} (k : Variant f h) : h.card = f.card := by
  rcases k with rfl | ⟨c, _, rfl⟩ <;> rfl

theorem Variant.givens {f h : NetFile K} (k : Variant f h) (hf : f.Valid) : h.givens = f.givens := by
  rcases k with rfl | ⟨c, _, rfl⟩
  · rfl
  · exact relearn_givens hf c

theorem Variant.relearn {f h : NetFile K} (k : Variant f h) (hf : f.Valid) (c : Nat → List Nat → K) : h.relearn c = f.relearn c := by
  rcases k with rfl | ⟨c', _, rfl⟩
  · rfl
  · exact relearn_relearn hf c' c

theorem Variant.isInterface {f h : NetFile K} (k : Variant f h) {s : Interface} (hs : IsInterface f s) : IsInterface h s := by
  rcases k with rfl | ⟨c, _, rfl⟩
  · exact hs
  · exact ⟨hs.prev, hs.out⟩

theorem Variant.counts {f h : NetFile K} (k : Variant f h) (hf : f.Valid) {ps : List (Potential K)} : CountTables h ps ↔ CountTables f ps := by
  have h1 := k.vars
  have h2 := k.card
  have h3 := k.givens hf
  constructor
  · intro g
    refine ⟨by rw [← h1]; exact g.length, ?_, g.nonneg⟩
    intro i v p hv hp
    rw [← h1] at hv
    have := g.shape i v p hv hp
    rw [h2, h3] at this
    exact this
  · intro g
    refine ⟨by rw [h1]; exact g.length, ?_, g.nonneg⟩
    intro i v p hv hp
    rw [h1] at hv
    rw [h2, h3]
    exact g.shape i v p hv hp

theorem Variant.countsIn {f h : NetFile K} (k : Variant f h) (ps : List (Potential K)) : countsIn h ps = countsIn f ps := by
  rcases k with rfl | ⟨c, _, rfl⟩ <;> rfl

theorem Variant.about {f h : NetFile K} (k : Variant f h) {ts : TimeSeries} (g : About f ts) : About h ts :=
  ⟨g.wf, g.nodup, by rw [k.vars]; exact g.sub⟩

theorem InterfaceOk.move {n n' : Net K} {m m' : Model K} {s : Interface} (h : InterfaceOk n m s) (hv : n'.vars = n.vars) (hc : n'.card = n.card)
    (hl : m'.tree.cliques.length = m.tree.cliques.length) (ho : ∀ c, m'.tree.varsOf c = m.tree.varsOf c) : InterfaceOk n' m' s := by
  refine ⟨by rw [hv]; exact h.prev, by rw [hv]; exact h.out, by rw [hc]; exact h.cards, ?_, ?_⟩
  · intro hne
    obtain ⟨c, h1, h2, h3⟩ := h.cliqueIn hne
    exact ⟨c, h1, by rw [hl]; exact h2, by rw [ho]; exact h3⟩
  · intro hne
    obtain ⟨c, h1, h2, h3⟩ := h.cliqueOut hne
    exact ⟨c, h1, by rw [hl]; exact h2, by rw [ho]; exact h3⟩

/-! ### the expectation steps of a round -/

/-- the counts expected of all series -/
noncomputable def allCounts (f : NetFile K) (data : Evidence) (v : Nat) (cell : List Nat) : K := (data.map (fun d => f.expectedCount d.2 d.1 v cell)).sum

theorem score_nonpos {f : NetFile K} (hf : f.Valid) {g : Logs K} (hg : ∀ a, 0 < a → a ≤ 1 → g.log a ≤ 0) {data : Evidence} (h : f.Explains data) :
    f.score g.log data ≤ 0 := by
  unfold NetFile.score
  induction data with
  | nil => exact le_refl _
  | cons d data ih =>
    rw [List.map_cons, List.sum_cons]
    exact add_nonpos (logs_small hf hg d.2 d.1 (h d (List.mem_cons_self ..))) (ih fun e he => h e (List.mem_cons_of_mem _ he))

theorem eSteps_spec {f : NetFile K} (hf : f.Valid) (htm : f.Temporal) {s : Interface} (hs : IsInterface f s) {series : List TimeSeries}
    (hser : ∀ ts ∈ series, About f ts) (marked : Nat → Bool) {g : Logs K} (hg : g.Law) (hg1 : ∀ a, 0 < a → a ≤ 1 → g.log a ≤ 0) {m : Model K} {w : World K}
    (h : Model.Holds f.net m w) (hi : InterfaceOk f.net m s) (hpar : ∀ v, (m.var v).parents = f.givens v) {params : List (Potential K)}
    (hp : CountTables f params) :
    ∃ code params' ll m', eSteps g s marked series params m = ok (code, params', ll, m') ∧ Same m m' ∧
      (f.Explains (evidenceOf marked series) → code = 0 ∧ ll = f.score g.log (evidenceOf marked series) ∧ CountTables f params' ∧
        (∃ w', Model.Holds f.net m' w') ∧ ∀ v cell, v ∈ f.vars → InRange ((v :: f.givens v).map f.card) cell →
          countsIn f params' v cell = countsIn f params v cell + allCounts f (evidenceOf marked series) v cell) ∧
      (¬ f.Explains (evidenceOf marked series) → code = NIP_ERROR_BAD_LUCK ∧ ∃ w' T', Model.Carries f.net m' w' T') := by
  obtain ⟨D, hD⟩ : ∃ D : Nat → Evidence, D = fun n => (evidenceOf marked series).take n := ⟨_, rfl⟩
  have hDs : ∀ n (hn : n < series.length), D (n + 1) = D n ++ [(series[n].length, tsSees marked series[n])] := by
    intro n hn
    rw [hD]
    simp only
    rw [List.take_succ_eq_append_getElem (by simpa [evidenceOf] using hn)]
    simp [evidenceOf]
  obtain ⟨⟨code, ps, ll, m'⟩, e1, e2, e3⟩ := loop_inv (n := series.length) (s := ((0, params, 0, m) : Nat × List (Potential K) × K × Model K))
    (f := fun n (st : Nat × List (Potential K) × K × Model K) =>
      if st.1 ≠ 0 then ok st
      else do
        let ts ← rd series n
        let (e, params, probe, m) ← eStep g s marked ts st.2.1 st.2.2.2
        if e ≠ 0 then ok (e, params, st.2.2.1, m)
        else if 0 < probe then ub
        else ok (0, params, st.2.2.1 + probe, m))
    (fun n st => Same m st.2.2.2 ∧ ((f.Explains (D n) ∧ st.1 = 0 ∧ st.2.2.1 = f.score g.log (D n) ∧ CountTables f st.2.1 ∧ (∃ w', Model.Holds f.net st.2.2.2 w') ∧
        ∀ v cell, v ∈ f.vars → InRange ((v :: f.givens v).map f.card) cell → countsIn f st.2.1 v cell = countsIn f params v cell + allCounts f (D n) v cell) ∨
      (¬ f.Explains (D n) ∧ st.1 = NIP_ERROR_BAD_LUCK ∧ ∃ w' T', Model.Carries f.net st.2.2.2 w' T')))
    ⟨Same.refl m, Or.inl ⟨by rw [hD]; intro d hd; simp at hd, rfl, by rw [hD]; simp [NetFile.score], hp, ⟨w, h⟩, by rw [hD]; intro v cell _ _; simp [allCounts]⟩⟩
    (by
      rintro n hn ⟨e, ps, ll, m1⟩ ⟨k1, k2⟩
      simp only at k1 k2 ⊢
      have hexp : f.Explains (D (n + 1)) ↔ f.Explains (D n) ∧ total f (tsSees marked series[n]) series[n].length ≠ 0 := by
        rw [hDs n hn]
        unfold NetFile.Explains
        rw [List.forall_mem_append, List.forall_mem_singleton]
        rfl
      rcases k2 with ⟨a1, a2, a3, a4, ⟨w1, a5⟩, a6⟩ | ⟨a1, a2, a3⟩
      · subst a2
        rw [if_neg (by simp), rd_lt hn, ok_bind]
        obtain ⟨code, ps', ll', m2, b1, b2, b3, b4⟩ := eStep_spec hf htm hs (hser _ (List.getElem_mem hn)) marked hg (fun t _ ht => logs_small hf hg1 _ t ht)
          a5.carries (hi.keep k1.skel) (fun v => (k1.parents v).trans (hpar v)) a4
        rw [b1, ok_bind]
        simp only
        by_cases hz : total f (tsSees marked series[n]) series[n].length = 0
        · obtain ⟨c1, c2, c3⟩ := b4 hz
          subst c1
          rw [if_pos (by decide)]
          exact ⟨_, rfl, k1.trans b2, Or.inr ⟨fun hx => (hexp.mp hx).2 hz, rfl, c3⟩⟩
        · obtain ⟨c1, c2, c3, c4, c5⟩ := b3 hz
          subst c1
          have hneg : ll' ≤ 0 := by rw [c2]; exact logs_small hf hg1 _ _ hz
          rw [if_neg (by simp), if_neg (not_lt.mpr hneg)]
          refine ⟨_, rfl, k1.trans b2, Or.inl ⟨hexp.mpr ⟨a1, hz⟩, rfl, ?_, c3, c4, ?_⟩⟩
          · simp only
            rw [a3, c2, hDs n hn]
            unfold NetFile.score
            rw [List.map_append, List.sum_append]
            simp [logs]
          · intro v cell hv hc
            simp only
            rw [c5 v cell hv hc, a6 v cell hv hc, hDs n hn, add_assoc]
            congr 1
            unfold allCounts
            rw [List.map_append, List.sum_append]
            simp
      · rw [if_pos (by rw [a2]; decide)]
        exact ⟨_, rfl, k1, Or.inr ⟨fun hx => a1 (hexp.mp hx).1, a2, a3⟩⟩)
  have hall : D series.length = evidenceOf marked series := by
    rw [hD]; exact List.take_of_length_le (by simp [evidenceOf])
  rw [hall] at e3
  refine ⟨code, ps, ll, m', e1, e2, ?_, ?_⟩
  · intro hx
    rcases e3 with ⟨_, a⟩ | ⟨a, _⟩
    · exact a
    · exact absurd hx a
  · intro hx
    rcases e3 with ⟨a, _⟩ | ⟨_, a⟩
    · exact absurd a hx
    · exact a

/-! ### the start -/

theorem newParameters_spec {f : NetFile K} (hf : f.Valid) {m : Model K} (h : Sound f.net m) (hpar : ∀ v, (m.var v).parents = f.givens v) :
    newParameters m = ok (f.drawn (fun _ _ => 1)) := by
  have key : ∀ (vs : List Nat) (acc : List (Potential K)), vs.foldlM (fun (ps : List (Potential K)) v => do
      let card := (m.var v).card :: (m.var v).parents.map (fun u => (m.var u).card)
      let p : Option (Potential K) ← Potential.new card (card.length : Int) none
      match p with
      | some p => ok (ps ++ [p])
      | none => ub) acc = ok (acc ++ vs.map (fun v => ⟨(v :: f.givens v).map f.card, List.replicate ((v :: f.givens v).map f.card).prod 1⟩)) := by
    intro vs
    induction vs with
    | nil => intro acc; simp [List.foldlM_nil]
    | cons v vs ih =>
      intro acc
      rw [List.foldlM_cons]
      have hcard : (m.var v).card :: (m.var v).parents.map (fun u => (m.var u).card) = (v :: f.givens v).map f.card := by
        rw [hpar, List.map_cons, h.card]
        congr 1
        exact List.map_congr_left fun u _ => h.card u
      have hn : Potential.new (K := K) ((v :: f.givens v).map f.card) (((v :: f.givens v).map f.card).length : Int) none =
          ok (some ⟨(v :: f.givens v).map f.card, List.replicate ((v :: f.givens v).map f.card).prod 1⟩) := by
        unfold Potential.new
        rw [if_neg (by omega)]
        simp only [Int.toNat_natCast]
        rw [Potential.sizeOf_eq _ (le_refl _)]
        simp only [ok_bind, List.take_length]
      simp only [hcard, hn, ok_bind]
      refine (ih _).trans ?_
      simp
  unfold newParameters
  refine (key _ _).trans ?_
  rw [List.nil_append, show m.varList = f.vars from h.vars]
  congr 1
  unfold NetFile.drawn
  apply List.ext_getElem (by simp)
  intro i h1 h2
  simp [List.map_const']

theorem drawn_at {f : NetFile K} (num : Nat → Nat → K) {i v : Nat} (hv : f.vars[i]? = some v) : (f.drawn num)[i]? =
    some ⟨(v :: f.givens v).map f.card, (List.range ((v :: f.givens v).map f.card).prod).map (num i)⟩ := by
  unfold NetFile.drawn
  rw [List.getElem?_mapIdx, hv]
  rfl

theorem drawn_counts {f : NetFile K} (hf : f.Valid) {num : Nat → Nat → K} (hn : ∀ i j, 0 ≤ num i j) : CountTables f (f.drawn num) := by
  refine ⟨by simp [NetFile.drawn], ?_, ?_⟩
  · intro i v p hv hp
    rw [drawn_at num hv] at hp
    simp only [Option.some.injEq] at hp
    subst hp
    exact ⟨rfl, by simp, fun u hu => hf.states u (cell_sub hf (List.mem_of_getElem? hv) u hu)⟩
  · intro p hp a ha
    obtain ⟨i, hi, rfl⟩ := List.mem_mapIdx.mp hp
    obtain ⟨j, _, rfl⟩ := List.mem_map.mp ha
    exact hn i j

theorem random_drawn {f : NetFile K} (rand : Nat → Nat → K) : randomParameters rand (f.drawn (fun _ _ => 1)) = f.drawn rand := by
  unfold randomParameters NetFile.drawn
  apply List.ext_getElem (by simp)
  intro i h1 h2
  simp only [List.getElem_mapIdx, Potential.mk.injEq, true_and]
  apply List.ext_getElem (by simp)
  intro j h3 h4
  simp

/-- what learning starts from if it continues: the original tables of the cliques, summed -/
theorem presentParameters_spec {f : NetFile K} (hf : f.Valid) {m : Model K} {w : World K} (h : Model.Holds f.net m w)
    (hpar : ∀ v, (m.var v).parents = f.givens v) {params : List (Potential K)} (hp : CountTables f params) :
    ∃ params' m', presentParameters params m = ok (some params', m') ∧ Same m m' ∧ Model.Holds f.net m' w ∧ CountTables f params' ∧
      ∀ v ∈ f.vars, ∃ c cl, m.tree.findClique (f.givens v ++ [v]) = ok (some c) ∧ m.tree.cliques[c]? = some cl ∧ v :: f.givens v ⊆ cl.vars ∧
        ∀ x, countsIn f params' v (states f.card (v :: f.givens v) x) = sumOver f.card (without cl.vars (v :: f.givens v)) (sem f.card cl.vars cl.orig) x := by
  have hnd : f.vars.Nodup := hf.sorted.imp ne_of_lt
  obtain ⟨⟨ps, m'⟩, e1, ps', e2, e3, e4, e5, e6, e7⟩ := loop_inv (n := f.vars.length) (s := ((some params, m) : Option (List (Potential K)) × Model K))
    (f := fun i (st : Option (List (Potential K)) × Model K) =>
      match st.1 with
      | none => ok st
      | some ps => do
        let v ← rd st.2.varList i
        let (c, m) ← st.2.findFamily v
        match c with
        | none => ok (none, m)
        | some c => do
          let cl ← rd m.tree.cliques c
          let mp ← familyMapping cl.vars v (m.var v).parents
          let p ← rd ps i
          let (_, p) ← Potential.generalMarginalise cl.orig p mp
          let ps ← wr ps i p
          ok (some ps, m))
    (fun i st => ∃ ps', st.1 = some ps' ∧ Same m st.2 ∧ Model.Holds f.net st.2 w ∧ st.2.tree = m.tree ∧ CountTables f ps' ∧
      ∀ j v, j < i → f.vars[j]? = some v → ∃ c cl, m.tree.findClique (f.givens v ++ [v]) = ok (some c) ∧ m.tree.cliques[c]? = some cl ∧
        v :: f.givens v ⊆ cl.vars ∧ ∀ x, countsIn f ps' v (states f.card (v :: f.givens v) x) =
          sumOver f.card (without cl.vars (v :: f.givens v)) (sem f.card cl.vars cl.orig) x)
    ⟨params, rfl, Same.refl m, h, rfl, hp, fun j v hj => by omega⟩
    (by
      rintro i hi ⟨o, m1⟩ ⟨ps, k0, k1, k2, k3, k4, k5⟩
      simp only at k0 k1 k2 k3 k4 k5
      subst k0
      have hv : f.vars[i]? = some f.vars[i] := List.getElem?_eq_getElem hi
      obtain ⟨v, hve⟩ : ∃ v, v = f.vars[i] := ⟨_, rfl⟩
      rw [← hve] at hv
      have hvm : v ∈ f.vars := List.mem_of_getElem? hv
      obtain ⟨c, f1, f2, f3, f4⟩ := findFamily_eq k2.sound hvm
      rw [k1.parents, hpar, k3] at f2
      rw [k3] at f3
      obtain ⟨cl, hcl⟩ : ∃ cl, m.tree.cliques[c]? = some cl := ⟨_, List.getElem?_eq_getElem f3⟩
      have hvars := JTree.varsOf_eq hcl
      obtain ⟨n1, n2, n3⟩ := h.sound.typed.clq c cl hcl
      have hsub := findClique_sub f2
      have hsub' : v :: f.givens v ⊆ cl.vars := by
        intro u hu
        rw [← hvars]
        rcases List.mem_cons.mp hu with rfl | hu
        · exact hsub _ (by simp)
        · exact hsub _ (by simp [hu])
      have hmap := familyMapping_eq n1 (givens_spec hf v).1 (hsub' (List.mem_cons_self ..)) (fun u hu => hsub' (List.mem_cons_of_mem _ hu))
      have hip : i < ps.length := by rw [k4.length]; exact hi
      have hpon := k4.shaped.shape i v _ hv (List.getElem?_eq_getElem hip)
      have hlen : (v :: f.givens v).length ≤ cl.vars.length := ((cell_nodup hf v).subperm hsub').length_le
      have hg := Potential.generalMarginalise_ofFn n3.wf hpon.wf (mapping := places cl.vars (v :: f.givens v))
        (by rw [n3.card_eq, hpon.card_eq]; exact places_into hsub') (by rw [n3.card_eq, hpon.card_eq]; simpa using hlen)
      obtain ⟨q, hq⟩ : ∃ q, q = Potential.ofFn ps[i].card (fun y => sumTuples cl.orig.card (fun x => project (places cl.vars (v :: f.givens v)) x = y) cl.orig.at') :=
        ⟨_, rfl⟩
      rw [← hq] at hg
      have hqon : TableOn f.card (v :: f.givens v) q := by rw [hq, hpon.card_eq]; exact ofFn_on hpon.pos _
      have hqsem : ∀ x, sem f.card (v :: f.givens v) q x = sumOver f.card (without cl.vars (v :: f.givens v)) (sem f.card cl.vars cl.orig) x := by
        intro x
        rw [hq, hpon.card_eq, sem_ofFn hpon.pos]
        exact sumTuples_sem n1 hsub' n3 x
      have horig : ∀ x, 0 ≤ sem f.card cl.vars cl.orig x := by
        intro x
        have := h.sound.onneg c x
        unfold JTree.origOf at this
        rw [hcl] at this
        exact this
      have hqn : ∀ a ∈ q.data, 0 ≤ a := sem_data_nonneg (cell_nodup hf v) hqon (fun x => by rw [hqsem]; exact sumOver_nonneg horig _)
      have hct : CountTables f (ps.set i q) := by
        have := k4.shaped.set hv hqon
        refine ⟨this.length, fun j u p hu hp => (this.shape j u p hu hp).for, ?_⟩
        intro p hpm
        rcases List.mem_or_eq_of_mem_set hpm with hpm | rfl
        · exact k4.nonneg p hpm
        · exact hqn
      have f2' : m1.tree.findClique ((m1.var v).parents ++ [v]) = ok (some c) := by rw [k1.parents, hpar, k3]; exact f2
      refine ⟨(some (ps.set i q), m1.memo v c), ?_, ps.set i q, rfl, k1.trans (memo_same m1 v c), ?_, k3, hct, ?_⟩
      · simp only
        rw [show m1.varList = f.vars from k2.sound.vars, rd_eq_ok.mpr hv, ok_bind, f1, ok_bind]
        simp only
        have htree : (m1.memo v c).tree = m.tree := k3
        rw [htree, rd_eq_ok.mpr hcl, ok_bind, (memo_same m1 v c).parents, k1.parents, hpar, hmap, ok_bind, rd_lt hip, ok_bind, hg, ok_bind]
        simp only
        rw [wr_lt hip, ok_bind]
      · have := k2.carries.memo f2'
        exact ⟨this.sound, this.told, this.reps⟩
      · intro j u hj hu
        by_cases e : j = i
        · subst e
          rw [hv] at hu
          simp only [Option.some.injEq] at hu
          subst hu
          refine ⟨c, cl, f2, hcl, hsub', fun x => ?_⟩
          rw [countsIn_at hf hv (List.getElem?_set_self hip), ← hqsem]
          rfl
        · obtain ⟨c', cl', g1, g2, g3, g4⟩ := k5 j u (by omega) hu
          refine ⟨c', cl', g1, g2, g3, fun x => ?_⟩
          have hjl : j < ps.length := by rw [k4.length]; exact (List.getElem?_eq_some_iff.mp hu).1
          rw [← g4 x, countsIn_at hf hu (List.getElem?_eq_getElem hjl),
            countsIn_at hf hu (by rw [List.getElem?_set_ne (Ne.symm e)]; exact List.getElem?_eq_getElem hjl)])
  simp only at e2
  subst e2
  refine ⟨ps', m', ?_, e3, e4, e6, ?_⟩
  · unfold presentParameters
    rw [show m.varList = f.vars from h.sound.vars]
    exact e1
  · intro v hv
    obtain ⟨j, hj⟩ := List.mem_iff_getElem?.mp hv
    exact e7 j v (List.getElem?_eq_some_iff.mp hj).1 hj

/-! ### the loop -/

theorem uniform_counts {f : NetFile K} {ps : List (Potential K)} (h : CountTables f ps) : CountTables f (ps.map (fun p => p.uniform 1)) := by
  refine ⟨by rw [List.length_map]; exact h.length, ?_, ?_⟩
  · intro i v p hv hp
    rw [List.getElem?_map] at hp
    obtain ⟨q, hq, rfl⟩ := Option.map_eq_some_iff.mp hp
    have := h.shape i v q hv hq
    exact ⟨this.1, by simpa [Potential.uniform, Potential.size] using this.2.1, this.2.2⟩
  · intro p hp a ha
    obtain ⟨q, _, rfl⟩ := List.mem_map.mp hp
    rw [(List.mem_replicate.mp ha).2]
    exact zero_le_one

theorem uniform_one {f : NetFile K} (hf : f.Valid) {ps : List (Potential K)} (h : CountTables f ps) {v : Nat} (hv : v ∈ f.vars) {cell : List Nat}
    (hc : InRange ((v :: f.givens v).map f.card) cell) : countsIn f (ps.map (fun p => p.uniform 1)) v cell = 1 := by
  obtain ⟨i, hi⟩ := List.mem_iff_getElem?.mp hv
  have hil : i < ps.length := by rw [h.length]; exact (List.getElem?_eq_some_iff.mp hi).1
  rw [countsIn_at hf hi (by rw [List.getElem?_map, List.getElem?_eq_getElem hil]; rfl)]
  have hs := TableOn.ofFor (h.shape i v _ hi (List.getElem?_eq_getElem hil))
  unfold Potential.at' cellOf Potential.uniform Potential.size
  simp only
  rw [← hs.card_eq] at hc
  have hl := position_lt hc
  rw [← hs.wf.1] at hl
  rw [List.getD_eq_getElem _ _ (by simpa using hl), List.getElem_replicate]

open Classical in
/-- What is decided after round `k` (counted from 0): the code and the stopping criterion, or `none` to go on.  Impossible data are bad luck, and so is a
log likelihood lower than the one before by more than the bound.  There are at least three rounds.  Then learning stops if the log likelihood rises
by no more than the bound, or if the largest number of rounds is reached. -/
noncomputable def verdict (lowest bound : K) (maxIterations : Int) (possible : Nat → Prop) (score : Nat → K) (k : Nat) : Option (Nat × Option Convergence) :=
  if ¬ possible k then some (NIP_ERROR_BAD_LUCK, none)
  else if score k + bound < (if k = 0 then lowest else score (k - 1)) then some (NIP_ERROR_BAD_LUCK, none)
  else if k + 1 < 3 then none
  else if score k - (if k = 0 then lowest else score (k - 1)) ≤ bound then some (0, some .delta)
  else if maxIterations ≤ ((k + 1 : Nat) : Int) then some (0, some .iterations)
  else none

/-- What learning leaves besides the meaning of the model: interfaces, parents, and original tables made of counts. -/
structure Leaves (f : NetFile K) (s : Interface) (count : Nat → List Nat → K) (m : Model K) : Prop where
  iface : InterfaceOk (f.relearn count).net m s
  parents : ∀ v, (m.var v).parents = f.givens v
  orig : ∀ c x, m.tree.origOf f.card c x = ((f.vars.filter (fun v => decide (f.givens v ≠ []) && livesIn m.tree (f.givens v) v c)).map (fun v =>
    estimate (f.card v) (count v) (states f.card (v :: f.givens v) x))).prod

theorem Leaves.same {f : NetFile K} {s : Interface} {count : Nat → List Nat → K} {m m' : Model K} (h : Leaves f s count m) (hs : Model.Same m m') : Leaves f s count m' := by
  refine ⟨h.iface.keep hs.skel, fun v => (hs.parents v).trans (h.parents v), fun c x => ?_⟩
  rw [origOf_skel hs.skel, h.orig]
  have : ∀ v, livesIn m'.tree (f.givens v) v c = livesIn m.tree (f.givens v) v c := by
    intro v
    unfold livesIn
    rw [findClique_skel hs.skel]
  simp only [this]

theorem learnLoop_spec {f : NetFile K} (hf : f.Valid) (htm : f.Temporal) {s : Interface} (hs : IsInterface f s) {series : List TimeSeries}
    (hser : ∀ ts ∈ series, About f ts) (marked : Nat → Bool) {g : Logs K} (hg : g.Law) (hg1 : ∀ a, 0 < a → a ≤ 1 → g.log a ≤ 0) (steps : Nat)
    (maxIterations : Int) (threshold : K) (start : Nat → List Nat → K) {data : Evidence} (hdata : data = evidenceOf marked series) (fuel : Nat) :
    ∀ (i : Nat) (old : K) (params : List (Potential K)) (m : Model K) (w : World K) (T : Asg → K) (h : NetFile K), Variant f h → Model.Carries h.net m w T →
      InterfaceOk h.net m s → (∀ v, (m.var v).parents = f.givens v) → CountTables f params →
      (∀ v ∈ f.vars, ∀ cell, InRange ((v :: f.givens v).map f.card) cell → countsIn f params v cell = f.learnRounds data start i v cell) →
      old = (if i = 0 then g.lowest else (f.learnedNet data start (i - 1)).score g.log data) →
      i < max 3 maxIterations.toNat → max 3 maxIterations.toNat ≤ fuel + i →
      ∃ (R : Learned K) (k : Nat) (w' : World K) (T' : Asg → K), i ≤ k ∧
        learnLoop g s marked series steps maxIterations threshold fuel i old ((List.range i).map (fun j => (f.learnedNet data start j).score g.log data))
          params m = ok R ∧
        (∀ j, i ≤ j → j < k → verdict g.lowest ((steps : K) * threshold) maxIterations (fun j => (f.learnedNet data start j).Explains data)
          (fun j => (f.learnedNet data start j).score g.log data) j = none) ∧
        verdict g.lowest ((steps : K) * threshold) maxIterations (fun j => (f.learnedNet data start j).Explains data)
          (fun j => (f.learnedNet data start j).score g.log data) k = some (R.code, R.criterion) ∧
        ((f.learnedNet data start k).Valid ∧ Model.Carries (f.learnedNet data start k).net R.model w' T' ∧ Leaves f s (f.learnRounds data start k) R.model) ∧
        ((f.learnedNet data start k).Explains data → R.curve = (List.range (k + 1)).map (fun j => (f.learnedNet data start j).score g.log data) ∧
          CountTables f R.params ∧ ∀ v ∈ f.vars, ∀ cell, InRange ((v :: f.givens v).map f.card) cell →
            countsIn f R.params v cell = f.learnRounds data start (k + 1) v cell) ∧
        (¬ (f.learnedNet data start k).Explains data → R.curve = (List.range k).map (fun j => (f.learnedNet data start j).score g.log data)) := by
  induction fuel with
  | zero => intro i old params m w T h _ _ _ _ _ _ _ h1 h2; omega
  | succ fuel ih =>
    intro i old params m w T h hvar hholds hi hpar hcount hrounds hold hlim hfuel
    have hhv := hvar.valid hf
    obtain ⟨ps1, m1, a1, a2, a3, a4, a5, a6, a7, _, a8⟩ := mStep_spec hhv hholds (fun v => by rw [hvar.givens hf]; exact hpar v) ((hvar.counts hf).mpr hcount)
    obtain ⟨n, hn⟩ : ∃ n, n = f.learnedNet data start i := ⟨_, rfl⟩
    have hnet : h.relearn (countsIn h params) = n := by
      rw [hvar.relearn hf, hvar.countsIn, hn]
      exact relearn_congr hf hrounds
    have hnc : f.relearn (countsIn f params) = n := by rw [← hnet, hvar.relearn hf, hvar.countsIn]
    have hnv : Variant f n := Or.inr ⟨_, fun v c => countsIn_nonneg hcount v c, hnc.symm⟩
    rw [hnet] at a4
    have hc1 : CountTables f ps1 := (hvar.counts hf).mp a2
    have hi1 : InterfaceOk n.net m1 s := hi.move (by show n.vars = h.vars; rw [hnv.vars, hvar.vars]) (by show n.card = h.card; rw [hnv.card, hvar.card]) a6 a7
    have hpar1 : ∀ v, (m1.var v).parents = f.givens v := fun v => by rw [a5, hvar.givens hf]
    obtain ⟨code, ps2, ll, m2, b1, b2, b3, b4⟩ := eSteps_spec (hnv.valid hf) (hnv.temporal hf htm) (hnv.isInterface hs)
      (fun ts hts => hnv.about (hser ts hts)) marked hg hg1 a4 hi1 (fun v => by rw [hnv.givens hf]; exact hpar1 v)
      ((hnv.counts hf).mpr (uniform_counts hc1))
    rw [← hdata] at b3 b4
    have hleft : Leaves f s (f.learnRounds data start i) m1 := by
      refine ⟨by rw [hn] at hi1; exact hi1, hpar1, fun c x => ?_⟩
      have h8 := a8 c x
      rw [hvar.card, hvar.vars, hvar.givens hf, hvar.countsIn] at h8
      rw [h8]
      congr 1
      apply List.map_congr_left
      intro v hv
      have hvm := (List.mem_filter.mp hv).1
      have hr := states_inRange (card := f.card) (vs := v :: f.givens v) (fun u hu => by
        rcases List.mem_cons.mp hu with rfl | hu
        · exact hf.states _ hvm
        · exact hf.states u ((givens_spec hf v).2 u hu).1) x
      unfold estimate
      rw [hrounds v hvm _ hr]
      congr 1
      refine Finset.sum_congr rfl fun j hj => hrounds v hvm _ ?_
      cases hr with
      | cons _ ht => exact List.Forall₂.cons (Finset.mem_range.mp hj) ht
    unfold learnLoop
    rw [a1, ok_bind]
    simp only
    rw [if_neg (by simp), b1, ok_bind]
    simp only
    by_cases hex : n.Explains data
    · obtain ⟨c1, c2, c3, ⟨w2, c4⟩, c5⟩ := b3 hex
      subst c1
      have hll : ll ≤ 0 := by rw [c2]; exact score_nonpos (hnv.valid hf) hg1 hex
      have hc2 : CountTables f ps2 := (hnv.counts hf).mp c3
      have hr2 : ∀ v ∈ f.vars, ∀ cell, InRange ((v :: f.givens v).map f.card) cell → countsIn f ps2 v cell = f.learnRounds data start (i + 1) v cell := by
        intro v hv cell hc
        have := c5 v cell (by rw [hnv.vars]; exact hv) (by rw [hnv.givens hf, hnv.card]; exact hc)
        rw [hnv.countsIn, hnv.countsIn, uniform_one hf hc1 hv hc] at this
        rw [this, hn]
        rfl
      have hcurve : (List.range i).map (fun j => (f.learnedNet data start j).score g.log data) ++ [ll] =
          (List.range (i + 1)).map (fun j => (f.learnedNet data start j).score g.log data) := by
        rw [List.range_succ, List.map_append, c2, hn]; rfl
      have hpos : ¬ 0 < ll := not_lt.mpr hll
      have hlls : ll = (f.learnedNet data start i).score g.log data := by rw [c2, hn]
      have hexi : (f.learnedNet data start i).Explains data := by rw [← hn]; exact hex
      rw [if_neg (by simp), hcurve]
      have hmin : minEmIterations = 3 := rfl
      by_cases hdrop : old > ll + (steps : K) * threshold
      · rw [if_pos (Or.inl hdrop)]
        refine ⟨_, i, w2, _, le_refl _, rfl, fun j h1 h2 => by omega, ?_, by rw [← hn]; exact ⟨hnv.valid hf, c4.carries, hleft.same b2⟩, fun _ => ⟨rfl, hc2, hr2⟩, fun h => absurd hexi h⟩
        unfold verdict
        beta_reduce
        rw [if_neg (not_not.mpr hexi), ← hlls, ← hold, if_pos hdrop]
      · rw [if_neg (by rintro (h | h); exacts [hdrop h, hpos h])]
        have hgo : ∀ (hnone : verdict g.lowest ((steps : K) * threshold) maxIterations (fun j => (f.learnedNet data start j).Explains data)
            (fun j => (f.learnedNet data start j).score g.log data) i = none) (hl2 : i + 1 < max 3 maxIterations.toNat),
            ∃ (R : Learned K) (k : Nat) (w' : World K) (T' : Asg → K), i ≤ k ∧
              learnLoop g s marked series steps maxIterations threshold fuel (i + 1) ll
                ((List.range (i + 1)).map (fun j => (f.learnedNet data start j).score g.log data)) ps2 m2 = ok R ∧
              (∀ j, i ≤ j → j < k → verdict g.lowest ((steps : K) * threshold) maxIterations (fun j => (f.learnedNet data start j).Explains data)
                (fun j => (f.learnedNet data start j).score g.log data) j = none) ∧
              verdict g.lowest ((steps : K) * threshold) maxIterations (fun j => (f.learnedNet data start j).Explains data)
                (fun j => (f.learnedNet data start j).score g.log data) k = some (R.code, R.criterion) ∧
              ((f.learnedNet data start k).Valid ∧ Model.Carries (f.learnedNet data start k).net R.model w' T' ∧ Leaves f s (f.learnRounds data start k) R.model) ∧
              ((f.learnedNet data start k).Explains data → R.curve = (List.range (k + 1)).map (fun j => (f.learnedNet data start j).score g.log data) ∧
                CountTables f R.params ∧ ∀ v ∈ f.vars, ∀ cell, InRange ((v :: f.givens v).map f.card) cell →
                  countsIn f R.params v cell = f.learnRounds data start (k + 1) v cell) ∧
              (¬ (f.learnedNet data start k).Explains data → R.curve = (List.range k).map (fun j => (f.learnedNet data start j).score g.log data)) := by
          intro hnone hl2
          obtain ⟨R, k, w', T', d1, d2, d3, d4⟩ := ih (i + 1) ll ps2 m2 w2 _ n hnv c4.carries (hi1.keep b2.skel) (fun v => (b2.parents v).trans (hpar1 v)) hc2 hr2
            (by rw [if_neg (by omega)]; exact hlls) hl2 (by omega)
          refine ⟨R, k, w', T', by omega, d2, ?_, d4⟩
          intro j h1 h2
          by_cases e : j = i
          · rw [e]; exact hnone
          · exact d3 j (by omega) h2
        by_cases h3 : i + 1 ≥ minEmIterations
        · rw [if_pos h3]
          have h3' : ¬ i + 1 < 3 := by omega
          by_cases himp : ll - old > (steps : K) * threshold
          · rw [if_pos himp]
            by_cases hmax : ((i + 1 : Nat) : Int) ≥ maxIterations
            · rw [if_pos hmax]
              refine ⟨_, i, w2, _, le_refl _, rfl, fun j h1 h2 => by omega, ?_, by rw [← hn]; exact ⟨hnv.valid hf, c4.carries, hleft.same b2⟩, fun _ => ⟨rfl, hc2, hr2⟩, fun h => absurd hexi h⟩
              unfold verdict
              beta_reduce
              rw [if_neg (not_not.mpr hexi), ← hlls, ← hold, if_neg hdrop, if_neg h3', if_neg (not_le.mpr himp), if_pos hmax]
            · rw [if_neg hmax]
              refine hgo ?_ (by omega)
              unfold verdict
              beta_reduce
              rw [if_neg (not_not.mpr hexi), ← hlls, ← hold, if_neg hdrop, if_neg h3', if_neg (not_le.mpr himp), if_neg hmax]
          · rw [if_neg himp]
            refine ⟨_, i, w2, _, le_refl _, rfl, fun j h1 h2 => by omega, ?_, by rw [← hn]; exact ⟨hnv.valid hf, c4.carries, hleft.same b2⟩, fun _ => ⟨rfl, hc2, hr2⟩, fun h => absurd hexi h⟩
            unfold verdict
            beta_reduce
            rw [if_neg (not_not.mpr hexi), ← hlls, ← hold, if_neg hdrop, if_neg h3', if_pos (not_lt.mp himp)]
        · rw [if_neg h3]
          refine hgo ?_ (by omega)
          unfold verdict
          beta_reduce
          rw [if_neg (not_not.mpr hexi), ← hlls, ← hold, if_neg hdrop, if_pos (by omega)]
    · obtain ⟨c1, w2, T2, c2⟩ := b4 hex
      subst c1
      have hexi : ¬ (f.learnedNet data start i).Explains data := by rw [← hn]; exact hex
      rw [if_pos (by decide)]
      refine ⟨_, i, w2, T2, le_refl _, rfl, fun j h1 h2 => by omega, ?_, by rw [← hn]; exact ⟨hnv.valid hf, c2, hleft.same b2⟩, fun h => absurd h hexi, fun _ => ?_⟩
      · unfold verdict
        beta_reduce
        rw [if_pos hexi]
      · simp only
        rw [if_neg (by simp)]

end Nip
