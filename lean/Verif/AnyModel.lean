import Verif.AnyNumbers

/-! # Operations on a model with numbers without laws -/

namespace Nip

open Res Spec

set_option linter.unusedSectionVars false

variable {K : Type} [Zero K] [One K] [Add K] [_root_.Sub K] [Mul K] [Div K] [LinearOrder K] {P : K → Prop}

namespace Model

/-- the parts of a model fit together and its numbers are in the set -/
structure Fit (P : K → Prop) (cd : Nat → Nat) (vs : List Nat) (m : Model K) : Prop where
  good : ∃ L, m.tree.Good cd L
  safe : m.tree.Safe P cd
  card : ∀ v, (m.var v).card = cd v
  vars : m.varList = vs
  roots : ∀ v ∈ m.independent, v ∈ vs ∧ ∃ pr, (m.var v).prior = some pr ∧ pr.length = cd v ∧ Cells P pr
  lik : ∀ v ∈ vs, (m.var v).likelihood.length = cd v ∧ Cells P (m.var v).likelihood
  fam : ∀ v ∈ vs, ∃ c, m.tree.findClique ((m.var v).parents ++ [v]) = ok (some c) ∧ c < m.tree.cliques.length ∧
    v ∈ m.tree.varsOf c ∧ ((m.var v).familyClique = none ∨ (m.var v).familyClique = some c)

variable {card : Nat → Nat} {vars : List Nat}

theorem Fit.same {m m' : Model K} (h : Fit P card vars m) (hs : Same m m') (ht : m'.tree.Safe P card)
    (hl : ∀ v ∈ vars, (m'.var v).likelihood.length = card v ∧ Cells P (m'.var v).likelihood)
    (hf : ∀ v ∈ vars, (m'.var v).familyClique = (m.var v).familyClique ∨
      ∃ c, m.tree.findClique ((m.var v).parents ++ [v]) = ok (some c) ∧ (m'.var v).familyClique = some c) : Fit P card vars m' := by
  obtain ⟨L, hL⟩ := h.good
  have hlen := JTree.skel_len hs.skel
  refine ⟨⟨L, hL.skel hs.skel⟩, ht, fun v => by rw [hs.card]; exact h.card v, hs.varList.trans h.vars, ?_, hl, ?_⟩
  · intro v hv
    rw [hs.independent] at hv
    rw [hs.prior]; exact h.roots v hv
  · intro v hv
    obtain ⟨c, h1, h2, h3, h4⟩ := h.fam v hv
    refine ⟨c, ?_, ?_, ?_, ?_⟩
    · rw [findClique_skel hs.skel, hs.parents]; exact h1
    · rw [hlen]; exact h2
    · rw [JTree.skel_vars hs.skel]; exact h3
    · rcases hf v hv with e | ⟨c', e1, e2⟩
      · rw [e]; exact h4
      · rw [h1] at e1
        simp only [ok.injEq, Option.some.injEq] at e1
        rw [e2, e1]; exact Or.inr rfl

/-- only the tree is replaced -/
theorem Fit.tree {m : Model K} (h : Fit P card vars m) {t : JTree K} (hs : t.skel = m.tree.skel) (ht : t.Safe P card) :
    Same m { m with tree := t } ∧ Fit P card vars { m with tree := t } := by
  have hsame : Same m { m with tree := t } := ⟨hs, rfl, rfl, fun _ => rfl, fun _ => rfl, fun _ => rfl, fun _ => rfl, fun _ => rfl⟩
  exact ⟨hsame, h.same hsame ht h.lik (fun _ _ => Or.inl rfl)⟩

theorem findFamily_any {m : Model K} (h : Fit P card vars m) {v : Nat} (hv : v ∈ vars) :
    ∃ c, m.findFamily v = ok (some c, m.memo v c) ∧ c < m.tree.cliques.length ∧ v ∈ m.tree.varsOf c ∧ Fit P card vars (m.memo v c) := by
  obtain ⟨c, h1, h2, h3, h4⟩ := h.fam v hv
  refine ⟨c, ?_, h2, h3, ?_⟩
  · unfold findFamily
    rcases h4 with e | e
    · rw [e, h1, ok_bind]; rfl
    · rw [e]
      simp only
      congr 2
      unfold memo setVar
      have : ({ m.var v with familyClique := some c } : VarRec K) = m.var v := by rw [← e]
      rw [this, Function.update_eq_self]
  · refine h.same (memo_same m v c) h.safe ?_ ?_
    · intro u hu; rw [(memo_var m v c u).1]; exact h.lik u hu
    · intro u hu
      rw [(memo_var m v c u).2.2]
      by_cases e : u = v
      · subst e; right; exact ⟨c, h1, by simp⟩
      · left; simp [e]

theorem multiply_any (hP : Closed P) {m : Model K} (h : Fit P card vars m) {c v : Nat} (hv : v ∈ m.tree.varsOf c) (hc : c < m.tree.cliques.length) {num : List K}
    {den : Option (List K)} (hnum : card v ≤ num.length) (hden : ∀ d, den = some d → card v ≤ d.length) (h1 : Cells P num) (h2 : ∀ d, den = some d → Cells P d) :
    ∃ t', m.multiplyEvidence c v num den = ok { m with tree := t' } ∧ Same m { m with tree := t' } ∧ Fit P card vars { m with tree := t' } := by
  obtain ⟨cl, hcl⟩ : ∃ cl, m.tree.cliques[c]? = some cl := ⟨_, List.getElem?_eq_getElem hc⟩
  have hvars := JTree.varsOf_eq hcl
  rw [hvars] at hv
  obtain ⟨n1, n2, n3⟩ := h.safe.typed.clq c cl hcl
  obtain ⟨i, hi⟩ : ∃ i, i = cl.vars.findIdx (fun y => v == y) := ⟨_, rfl⟩
  have hil : i < cl.vars.length := by rw [hi]; exact List.findIdx_lt_length_of_exists ⟨v, hv, by simp⟩
  have hvi : cl.vars[i] = v := by
    have := List.findIdx_getElem (xs := cl.vars) (p := fun y => v == y) (w := by rw [← hi]; exact hil)
    simp only [← hi] at this
    simp at this; exact this.symm
  have hilc : i < cl.p.card.length := by rw [n2.card_eq]; simpa using hil
  have hci : cl.p.card[i] = card v := by simp [n2.card_eq, hvi]
  have hupd := Potential.updateEvidence_ofFn n2.wf (num := num) (den := den) hilc (by rw [hci]; exact hnum)
    (fun d hd => by rw [hci]; exact hden d hd)
  obtain ⟨q, hq⟩ : ∃ q, q = Potential.ofFn cl.p.card (fun x => Potential.evCell num den i x (cl.p.at' x)) := ⟨_, rfl⟩
  rw [← hq] at hupd
  have hqon : TableOn card cl.vars q := by rw [hq, n2.card_eq]; exact ofFn_on n2.pos _
  have hqc : Cells P q.data := by
    rw [hq]; exact cells_ofFn fun x => Potential.evCell_any hP h1 h2 _ _ ((h.safe.clq c cl hcl).1.at' hP.zero x)
  have hsk : ({ m.tree with cliques := m.tree.cliques.set c { cl with p := q } } : JTree K).skel = m.tree.skel :=
    JTree.set_skel (cl' := { cl with p := q }) hcl rfl rfl
  obtain ⟨s1, s2⟩ := h.tree hsk (h.safe.set_clique hcl hqon hqc)
  refine ⟨_, ?_, s1, s2⟩
  unfold multiplyEvidence
  rw [varIndex_eq (by rw [hvars]; exact hv) hc, ok_bind]
  simp only
  rw [hvars, ← hi, rd_eq_ok.mpr hcl, ok_bind, hupd, ok_bind, wr_lt hc, ok_bind]

theorem fold_any (hP : Closed P) : ∀ (vs : List Nat) (m : Model K), Fit P card vars m → (∀ v ∈ vs, v ∈ vars) →
    ∃ m', vs.foldlM retractVar m = ok m' ∧ Same m m' ∧ Fit P card vars m' := by
  intro vs
  induction vs with
  | nil => intro m h _; exact ⟨m, rfl, Same.refl m, h⟩
  | cons v vs ih =>
    intro m h hvs
    have hv := hvs v (List.mem_cons_self ..)
    obtain ⟨c, f1, f2, f3, f4⟩ := findFamily_any h hv
    obtain ⟨l1, l2⟩ := f4.lik v hv
    obtain ⟨t', e1, e2, e3⟩ := multiply_any hP f4 (c := c) (v := v) (num := ((m.memo v c).var v).likelihood) (den := none) f3 f2 (by omega)
      (by intro d hd; cases hd) l2 (by intro d hd; cases hd)
    obtain ⟨m', g1, g2, g3⟩ := ih _ e3 (fun u hu => hvs u (List.mem_cons_of_mem _ hu))
    refine ⟨m', ?_, ((memo_same m v c).trans e2).trans g2, g3⟩
    rw [List.foldlM_cons]
    have : retractVar m v = ok { m.memo v c with tree := t' } := by
      unfold retractVar
      rw [f1, ok_bind]
      exact e1
    rw [this]; exact g1

theorem globalRetraction_any (hP : Closed P) {m : Model K} (h : Fit P card vars m) :
    ∃ m', m.globalRetraction = ok m' ∧ Same m m' ∧ Fit P card vars m' := by
  obtain ⟨L, hL⟩ := h.good
  obtain ⟨s1, s2⟩ := h.tree (retracted_skel m.tree) (JTree.retracted_safe hP h.safe)
  obtain ⟨m', g1, g2, g3⟩ := fold_any hP vars _ s2 (fun v hv => hv)
  refine ⟨m', ?_, s1.trans g2, g3⟩
  unfold globalRetraction
  rw [JTree.unmarkAll_eq, ok_bind]
  have hb : m.tree.bare.cliques.length = m.tree.cliques.length := (JTree.bare_shape m.tree).len
  rw [hb, JTree.retract_spec hL h.safe.typed, ok_bind]
  simp only
  have hv := h.vars
  rw [← hv] at g1
  exact g1

/-- the record of a variable replaced, the likelihood still in order -/
theorem Fit.setVar {m : Model K} (h : Fit P card vars m) (v : Nat) (r : VarRec K) (hr : r.card = (m.var v).card ∧ r.parents = (m.var v).parents ∧
    r.prior = (m.var v).prior ∧ r.oldOutgoing = (m.var v).oldOutgoing ∧ r.outgoing = (m.var v).outgoing) (hf : r.familyClique = (m.var v).familyClique)
    (hl : r.likelihood.length = card v ∧ Cells P r.likelihood) : Same m (m.setVar v r) ∧ Fit P card vars (m.setVar v r) := by
  have hs := setVar_same m v r hr
  refine ⟨hs, h.same hs h.safe ?_ ?_⟩
  · intro u hu
    rw [setVar_var]
    by_cases e : u = v
    · subst e; simpa using hl
    · simp only [e, if_false]; exact h.lik u hu
  · intro u _
    left
    rw [setVar_var]
    by_cases e : u = v
    · subst e; simpa using hf
    · simp [e]

theorem reset_any (hP : Closed P) {m : Model K} (h : Fit P card vars m) : ∃ m', m.reset = ok m' ∧ Same m m' ∧ Fit P card vars m' := by
  have key : ∀ (vs : List Nat) (m : Model K), Fit P card vars m → (∀ v ∈ vs, v ∈ vars) → ∃ m', vs.foldlM resetVar m = ok m' ∧ Same m m' ∧ Fit P card vars m' := by
    intro vs
    induction vs with
    | nil => intro m h _; exact ⟨m, rfl, Same.refl m, h⟩
    | cons v vs ih =>
      intro m h hvs
      have hv := hvs v (List.mem_cons_self ..)
      obtain ⟨s1, s2⟩ := h.setVar v { m.var v with likelihood := List.replicate (m.var v).card 1, priorEntered := false } ⟨rfl, rfl, rfl, rfl, rfl⟩ rfl
        ⟨by simp [h.card], Cells.replicate hP.one⟩
      obtain ⟨m', g1, g2, g3⟩ := ih _ s2 (fun u hu => hvs u (List.mem_cons_of_mem _ hu))
      refine ⟨m', ?_, s1.trans g2, g3⟩
      rw [List.foldlM_cons]
      have : resetVar m v = ok (m.setVar v { m.var v with likelihood := List.replicate (m.var v).card 1, priorEntered := false }) := by
        unfold resetVar
        rw [resetLikelihood_eq m v (by rw [h.card]; exact (h.lik v hv).1), ok_bind]
        unfold Model.setVar
        simp
      rw [this]; exact g1
  obtain ⟨m1, a1, a2, a3⟩ := key vars m h (fun v hv => hv)
  obtain ⟨m2, b1, b2, b3⟩ := globalRetraction_any hP a3
  refine ⟨m2, ?_, a2.trans b2, b3⟩
  unfold reset
  rw [h.vars]
  have : (vars.foldlM (fun (m : Model K) v => do
      let m ← m.resetLikelihood v
      ok (m.setVar v { m.var v with priorEntered := false })) m) = ok m1 := a1
  rw [this, ok_bind, b1]

theorem enterEvidence_any (hP : Closed P) {m : Model K} (h : Fit P card vars m) {v : Nat} {e : List K} (hv : v ∈ vars) (he : e.length = card v) (hc : Cells P e) :
    ∃ m', m.enterEvidence v e = ok (0, m') ∧ Same m m' ∧ Fit P card vars m' := by
  obtain ⟨c, f1, f2, f3, f4⟩ := findFamily_any h hv
  obtain ⟨m1, hm1⟩ : ∃ m1, m1 = m.memo v c := ⟨_, rfl⟩
  have s1 : Same m m1 := by rw [hm1]; exact memo_same m v c
  have f2' : c < m1.tree.cliques.length := by rw [hm1]; exact f2
  have f3' : v ∈ m1.tree.varsOf c := by rw [hm1]; exact f3
  rw [← hm1] at f1 f4
  obtain ⟨l1, l2⟩ := f4.lik v hv
  obtain ⟨r, hloop, _⟩ := loop_inv (n := (m1.var v).card) (f := fun i (r : Bool) => do
      let l ← rd (m1.var v).likelihood i
      let e ← rd e i
      ok (if l = 0 ∧ e ≠ 0 then true else r)) (s := false) (fun _ _ => True) trivial (by
    intro i hi r _
    rw [f4.card] at hi
    rw [rd_lt (by omega), ok_bind, rd_lt (by omega), ok_bind]
    exact ⟨_, rfl, trivial⟩)
  cases r with
  | true =>
    have hup := updateLikelihood_eq m1 v e (by rw [l1, f4.card]) (by rw [he, f4.card])
    obtain ⟨s2, g2⟩ := f4.setVar v { m1.var v with likelihood := e } ⟨rfl, rfl, rfl, rfl, rfl⟩ rfl ⟨he, hc⟩
    obtain ⟨m', k1, k2, k3⟩ := globalRetraction_any hP g2
    refine ⟨m', ?_, s1.trans (s2.trans k2), k3⟩
    unfold enterEvidence
    rw [f1, ok_bind]
    simp only
    refine Eq.trans (congrArg (fun r => Res.bind r _) hloop) ?_
    simp only [ok_bind', Bool.not_true, Bool.false_eq_true, if_false, ok_bind, if_true, hup, k1]
  | false =>
    obtain ⟨t', e1, e2, e3⟩ := multiply_any hP f4 (c := c) (v := v) (num := e) (den := some (m1.var v).likelihood) f3' f2' (by omega)
      (by intro d hd; cases hd; omega) hc (by intro d hd; cases hd; exact l2)
    obtain ⟨m2, hm2⟩ : ∃ m2 : Model K, m2 = { m1 with tree := t' } := ⟨_, rfl⟩
    rw [← hm2] at e1 e2 e3
    have hup := updateLikelihood_eq m2 v e (by rw [(e3.lik v hv).1, e3.card]) (by rw [he, e3.card])
    obtain ⟨s2, g2⟩ := e3.setVar v { m2.var v with likelihood := e } ⟨rfl, rfl, rfl, rfl, rfl⟩ rfl ⟨he, hc⟩
    refine ⟨_, ?_, s1.trans (e2.trans s2), g2⟩
    unfold enterEvidence
    rw [f1, ok_bind]
    simp only
    refine Eq.trans (congrArg (fun r => Res.bind r _) hloop) ?_
    simp only [ok_bind', Bool.not_false, if_true, e1, ok_bind, hup, Bool.false_eq_true, if_false]

theorem enterIndexObservation_any (hP : Closed P) {m : Model K} (h : Fit P card vars m) {v : Nat} (hv : v ∈ vars) (i : Int) :
    ∃ m', m.enterIndexObservation v i = ok (0, m') ∧ Same m m' ∧ Fit P card vars m' := by
  unfold enterIndexObservation
  by_cases hi : i < 0
  · rw [if_pos hi]; exact ⟨m, rfl, Same.refl m, h⟩
  · rw [if_neg hi]
    obtain ⟨e, h1, h2, h3⟩ := loop_inv (n := (m.var v).card) (f := fun j e => wr e j (if (j : Int) = i then (1 : K) else 0))
      (s := List.replicate (m.var v).card 0) (fun _ e => e.length = card v ∧ Cells P e) ⟨by simp [h.card], Cells.replicate hP.zero⟩ (by
        rintro j hj e ⟨e1, e2⟩
        rw [h.card] at hj
        rw [wr_lt (by omega)]
        refine ⟨_, rfl, by simpa using e1, e2.set _ ?_⟩
        split
        · exact hP.one
        · exact hP.zero)
    obtain ⟨m', g1, g2, g3⟩ := enterEvidence_any hP h hv h2 h3
    refine ⟨m', ?_, g2, g3⟩
    refine Eq.trans (congrArg (fun r => Res.bind r _) h1) ?_
    exact g1

theorem usePrior_any (hP : Closed P) {m : Model K} (h : Fit P card vars m) (hist : Bool) {v : Nat} (hv : v ∈ m.independent) :
    ∃ m', usePrior hist m v = ok m' ∧ Same m m' ∧ Fit P card vars m' := by
  obtain ⟨hvv, pr, p1, p2, p3⟩ := h.roots v hv
  unfold usePrior
  rw [p1]
  simp only
  split
  · split
    · obtain ⟨c, f1, f2, f3, f4⟩ := findFamily_any h hvv
      obtain ⟨m1, hm1⟩ : ∃ m1, m1 = m.memo v c := ⟨_, rfl⟩
      have s1 : Same m m1 := by rw [hm1]; exact memo_same m v c
      have f2' : c < m1.tree.cliques.length := by rw [hm1]; exact f2
      have f3' : v ∈ m1.tree.varsOf c := by rw [hm1]; exact f3
      rw [← hm1] at f1 f4
      obtain ⟨r, hloop, _⟩ := loop_inv (n := (m1.var v).card) (f := fun i (e : Bool) => do
          let x ← rd pr i
          ok (if x > 0 then false else e)) (s := true) (fun _ _ => True) trivial (by
        intro i hi r _
        rw [f4.card] at hi
        rw [rd_lt (by omega), ok_bind]
        exact ⟨_, rfl, trivial⟩)
      have hent : ∃ e m2, m.enterPrior v pr = ok (e, m2) ∧ Same m1 m2 ∧ Fit P card vars m2 := by
        unfold enterPrior
        rw [f1, ok_bind]
        simp only
        cases r with
        | true =>
          refine ⟨EINVAL, m1, ?_, Same.refl m1, f4⟩
          refine Eq.trans (congrArg (fun r => Res.bind r _) hloop) ?_
          simp
        | false =>
          obtain ⟨t', e1, e2, e3⟩ := multiply_any hP f4 (c := c) (v := v) (num := pr) (den := none) f3' f2' (by omega)
            (by intro d hd; cases hd) p3 (by intro d hd; cases hd)
          refine ⟨0, _, ?_, e2, e3⟩
          refine Eq.trans (congrArg (fun r => Res.bind r _) hloop) ?_
          simp [e1]
      obtain ⟨e, m2, k1, k2, k3⟩ := hent
      obtain ⟨s2, g2⟩ := k3.setVar v { m2.var v with priorEntered := true } ⟨rfl, rfl, rfl, rfl, rfl⟩ rfl (k3.lik v hvv)
      refine ⟨_, ?_, s1.trans (k2.trans s2), g2⟩
      rw [k1, ok_bind]
    · exact ⟨m, rfl, Same.refl m, h⟩
  · exact ⟨m, rfl, Same.refl m, h⟩

theorem usePriors_any (hP : Closed P) {m : Model K} (h : Fit P card vars m) (hist : Bool) :
    ∃ m', m.usePriors hist = ok m' ∧ Same m m' ∧ Fit P card vars m' := by
  have key : ∀ (vs : List Nat) (m' : Model K), Same m m' → Fit P card vars m' → (∀ v ∈ vs, v ∈ m.independent) →
      ∃ m2, vs.foldlM (usePrior hist) m' = ok m2 ∧ Same m' m2 ∧ Fit P card vars m2 := by
    intro vs
    induction vs with
    | nil => intro m' _ h _; exact ⟨m', rfl, Same.refl m', h⟩
    | cons v vs ih =>
      intro m' hs h hvs
      obtain ⟨m1, a1, a2, a3⟩ := usePrior_any hP h hist (v := v) (by rw [hs.independent]; exact hvs v (List.mem_cons_self ..))
      obtain ⟨m2, b1, b2, b3⟩ := ih m1 (hs.trans a2) a3 (fun u hu => hvs u (List.mem_cons_of_mem _ hu))
      exact ⟨m2, by rw [List.foldlM_cons, a1]; exact b1, a2.trans b2, b3⟩
  exact key m.independent m (Same.refl m) h (fun v hv => hv)

theorem makeConsistent_any (hP : Closed P) {m : Model K} (h : Fit P card vars m) : ∃ m', m.makeConsistent = ok m' ∧ Same m m' ∧ Fit P card vars m' := by
  obtain ⟨L, hL⟩ := h.good
  obtain ⟨t1, t2, c1, c2, c3, c4⟩ := JTree.rounds_any hP hL h.safe
  obtain ⟨s1, s2⟩ := h.tree c3 c4
  refine ⟨_, ?_, s1, s2⟩
  unfold makeConsistent
  have hb : m.tree.bare.cliques.length = m.tree.cliques.length := (JTree.bare_shape m.tree).len
  have hb1 : t1.bare.cliques.length = t1.cliques.length := (JTree.bare_shape t1).len
  rw [JTree.unmarkAll_eq, ok_bind, hb, c1, ok_bind]
  simp only [ne_eq, not_true, if_false]
  rw [JTree.unmarkAll_eq, ok_bind, hb1, c2, ok_bind]

theorem probMass_any {m : Model K} (h : Fit P card vars m) : ∃ k m', m.probMass = ok (k, m') ∧ Same m m' ∧ Fit P card vars m' := by
  obtain ⟨L, hL⟩ := h.good
  obtain ⟨k, t', h1, h2⟩ := JTree.mass_any hL h.safe.typed
  obtain ⟨s1, s2⟩ := h.tree (JTree.skel_of_bare h2) (h.safe.of_bare h2)
  refine ⟨k, _, ?_, s1, s2⟩
  unfold probMass
  rw [h1, ok_bind]

/-- the sums of a clique table, before they are normalised -/
theorem marginalise_any (hP : Closed P) {m : Model K} (h : Fit P card vars m) {c v : Nat} (hc : c < m.tree.cliques.length) (hv : v ∈ m.tree.varsOf c) :
    ∃ r, m.tree.marginaliseClique c v (List.replicate (m.var v).card 0) = ok (0, r) ∧ r.length = card v ∧ Cells P r := by
  obtain ⟨cl, hcl⟩ : ∃ cl, m.tree.cliques[c]? = some cl := ⟨_, List.getElem?_eq_getElem hc⟩
  have hvars := JTree.varsOf_eq hcl
  rw [hvars] at hv
  obtain ⟨n1, n2, n3⟩ := h.safe.typed.clq c cl hcl
  obtain ⟨i, hi⟩ : ∃ i, i = cl.vars.findIdx (fun y => v == y) := ⟨_, rfl⟩
  have hil : i < cl.vars.length := by rw [hi]; exact List.findIdx_lt_length_of_exists ⟨v, hv, by simp⟩
  have hvi : cl.vars[i] = v := by
    have := List.findIdx_getElem (xs := cl.vars) (p := fun y => v == y) (w := by rw [← hi]; exact hil)
    simp only [← hi] at this
    simp at this; exact this.symm
  have hilc : i < cl.p.card.length := by rw [n2.card_eq]; simpa using hil
  have hci : cl.p.card[i] = card v := by simp [n2.card_eq, hvi]
  obtain ⟨r, r1, r2, r3⟩ := Potential.total_any hP n2.wf (h.safe.clq c cl hcl).1 (dest := List.replicate (m.var v).card 0) (Cells.replicate hP.zero) hilc
    (by rw [hci, List.length_replicate, h.card])
  refine ⟨r, ?_, by rw [r2, List.length_replicate, h.card], r3⟩
  unfold JTree.marginaliseClique
  rw [varIndex_eq (by rw [hvars]; exact hv) hc, ok_bind]
  simp only
  rw [hvars, ← hi, rd_eq_ok.mpr hcl, ok_bind, r1]

/-- What a question reports: the sums of a table, normalised. -/
theorem getProbability_any (hP : Closed P) {m : Model K} (h : Fit P card vars m) {v : Nat} (hv : v ∈ vars) :
    ∃ d r m', m.getProbability v = ok (some r, m') ∧ Same m m' ∧ Fit P card vars m' ∧ d.length = card v ∧ Cells P d ∧
      Potential.normaliseArray d 0 (card v) = ok r ∧ r.length = card v ∧ Cells P r := by
  obtain ⟨c, f1, f2, f3, f4⟩ := findFamily_any h hv
  obtain ⟨m1, hm1⟩ : ∃ m1, m1 = m.memo v c := ⟨_, rfl⟩
  have s1 : Same m m1 := by rw [hm1]; exact memo_same m v c
  have f2' : c < m1.tree.cliques.length := by rw [hm1]; exact f2
  have f3' : v ∈ m1.tree.varsOf c := by rw [hm1]; exact f3
  rw [← hm1] at f1 f4
  obtain ⟨d, d1, d2, d3⟩ := marginalise_any hP f4 f2' f3'
  obtain ⟨r, r1, r2, r3⟩ := Potential.normalise_cells hP d3 (off := 0) (n := card v) (by omega)
  refine ⟨d, r, m1, ?_, s1, f4, d2, d3, r1, by omega, r3⟩
  unfold getProbability
  rw [f1, ok_bind]
  simp only
  rw [d1, ok_bind]
  simp only
  rw [f4.card, r1, ok_bind]

end Model
end Nip
