import Verif.ModelLemmas

/-! # The operations on a model keep it in step with what was told -/

namespace Nip

open Res Spec

set_option linter.unusedSectionVars false

theorem loop_fill {α : Type} {f : Nat → List α → Res (List α)} {n : Nat} {dst : List α} (hd : dst.length = n) (g : Nat → α)
    (h : ∀ i, i < n → ∀ l : List α, l.length = n → f i l = ok (l.set i (g i))) : loop n f dst = ok ((List.range n).map g) := by
  obtain ⟨l, h1, h2, h3⟩ := loop_inv (n := n) (f := f) (s := dst) (fun i l => l.length = n ∧ ∀ j, j < i → l[j]? = some (g j))
    ⟨hd, by intro j hj; omega⟩ (by
      rintro i hi l ⟨h1, h2⟩
      refine ⟨_, h i hi l h1, by simp [h1], ?_⟩
      intro j hj
      rw [List.getElem?_set]
      by_cases e : i = j
      · subst e; rw [if_pos rfl, if_pos (by omega)]
      · rw [if_neg e]; exact h2 j (by omega))
  rw [h1]
  congr 1
  apply List.ext_getElem?
  intro i
  by_cases hi : i < n
  · rw [h3 i hi]; simp [hi]
  · rw [List.getElem?_eq_none (by omega), List.getElem?_eq_none (by simp; omega)]

theorem loop_any {n : Nat} {f : Nat → Bool → Res Bool} {p : Nat → Prop} [DecidablePred p] {b : Bool}
    (h : ∀ i, i < n → ∀ r, f i r = ok (if p i then b else r)) {r0 : Bool} (hr : r0 = !b) :
    loop n f r0 = ok (if ∃ i, i < n ∧ p i then b else r0) := by
  induction n with
  | zero => simp
  | succ n ih =>
    rw [loop_succ, ih (fun i hi => h i (by omega)), ok_bind', h n (by omega)]
    congr 1
    by_cases h1 : p n
    · rw [if_pos h1, if_pos ⟨n, by omega, h1⟩]
    · rw [if_neg h1]
      by_cases h2 : ∃ i, i < n ∧ p i
      · obtain ⟨i, hi, hp⟩ := h2
        rw [if_pos ⟨i, hi, hp⟩, if_pos ⟨i, by omega, hp⟩]
      · rw [if_neg h2, if_neg]
        rintro ⟨i, hi, hp⟩
        by_cases e : i = n
        · subst e; exact h1 hp
        · exact h2 ⟨i, by omega, hp⟩

theorem prod_update {K : Type} [CommMonoid K] {l : List Nat} (hl : l.Nodup) {v : Nat} (hv : v ∈ l) (f g : Nat → K) (h : ∀ u, u ≠ v → g u = f u) :
    ∃ R, (l.map f).prod = f v * R ∧ (l.map g).prod = g v * R := by
  refine ⟨((l.erase v).map f).prod, (List.prod_map_erase f hv).symm, ?_⟩
  rw [← List.prod_map_erase g hv]
  congr 2
  apply List.map_congr_left
  intro u hu
  exact h u (List.Nodup.mem_erase_iff hl |>.mp hu).1

variable {K : Type} [Zero K] [One K] [Add K] [_root_.Sub K] [Mul K] [Div K] [LinearOrder K]

namespace Model

theorem Reps.congr {K : Type} [Field K] [LinearOrder K] [IsStrictOrderedRing K] {m : Model K} {card : Nat → Nat} {T T' : Asg → K} (h : m.Reps card T) (e : ∀ x, T' x = T x) : m.Reps card T' := by
  have : T' = T := funext e
  rw [this]; exact h

/-- the clique found for the family of a variable -/
def famOf (m : Model K) (v : Nat) : Option Nat :=
  match m.tree.findClique ((m.var v).parents ++ [v]) with
  | ok r => r
  | ub => none

theorem famOf_eq {m : Model K} {v c : Nat} (h : m.tree.findClique ((m.var v).parents ++ [v]) = ok (some c)) : m.famOf v = some c := by
  unfold famOf; rw [h]

theorem famOf_same {m m' : Model K} (h : Same m m') (v : Nat) : m'.famOf v = m.famOf v := by
  unfold famOf; rw [findClique_skel h.skel, h.parents]

/-- one round of the loop of `globalRetraction` -/
def retractVar (m : Model K) (v : Nat) : Res (Model K) := do
  let (c, m) ← m.findFamily v
  match c with
  | none => ub
  | some c => m.multiplyEvidence c v (m.var v).likelihood none

theorem fold_evidence {K : Type} [Field K] [LinearOrder K] [IsStrictOrderedRing K] {net : Net K} (ev : Nat → List K) : ∀ (vs : List Nat) (m : Model K) (T : Asg → K), Sound net m → (∀ v ∈ vs, v ∈ net.vars) →
    (∀ v ∈ net.vars, (m.var v).likelihood = ev v ∧ (ev v).length = net.card v ∧ ∀ a ∈ ev v, 0 ≤ a) → m.Reps net.card T →
    ∃ m', vs.foldlM retractVar m = ok m' ∧ Same m m' ∧ Sound net m' ∧
      (∀ u, m'.var u = if u ∈ vs then { m.var u with familyClique := m.famOf u } else m.var u) ∧
      m'.Reps net.card (fun x => T x * (vs.map (fun v => (ev v).getD (x v % net.card v) 0)).prod) ∧
      (∀ d, m'.tree.markOf d = m.tree.markOf d) ∧
      ((∀ v ∈ vs, ev v = List.replicate (net.card v) 1) → m'.tree = m.tree) := by
  intro vs
  induction vs with
  | nil =>
    intro m T hS _ _ hT
    exact ⟨m, rfl, Same.refl m, hS, by simp, hT.congr (by simp), fun _ => rfl, fun _ => rfl⟩
  | cons v vs ih =>
    intro m T hS hvs hev hT
    have hv := hvs v (List.mem_cons_self ..)
    obtain ⟨c, f1, f2, f3, f4⟩ := findFamily_eq hS hv
    have hmS : Sound net (m.memo v c) := hS.same (memo_same m v c) hS.typed hS.nonneg (by
      intro u hu
      rw [(memo_var m v c u).2.2]
      by_cases e : u = v
      · subst e; right; exact ⟨c, f2, by simp⟩
      · left; simp [e])
    have hlik : ∀ u, ((m.memo v c).var u).likelihood = (m.var u).likelihood := fun u => (memo_var m v c u).1
    obtain ⟨l1, l2, l3⟩ := hev v hv
    obtain ⟨t', e1, e2, e3, e4, e5, e6, e7⟩ := multiply_spec (m := m.memo v c) (c := c) (v := v) (num := ev v) (den := none) hS.typed hS.nonneg
      f4 f3 (by omega) (by intro d h; cases h) l3 (by intro d h; cases h) (T := T) hT
    have hsame1 : Same m { m.memo v c with tree := t' } := by
      have := memo_same m v c
      exact ⟨e2, this.varList, this.independent, this.card, this.parents, this.prior, this.old, this.out⟩
    have hS1 : Sound net { m.memo v c with tree := t' } := hS.same hsame1 e3 e4 (by
      intro u hu
      show ((m.memo v c).var u).familyClique = _ ∨ _
      rw [(memo_var m v c u).2.2]
      by_cases e : u = v
      · subst e; right; exact ⟨c, f2, by simp⟩
      · left; simp [e])
    obtain ⟨m', g1, g2, g3, g4, g5, g6, g7⟩ := ih { m.memo v c with tree := t' } _ hS1 (fun u hu => hvs u (List.mem_cons_of_mem _ hu))
      (by
        intro u hu
        show ((m.memo v c).var u).likelihood = _ ∧ _
        rw [hlik]; exact hev u hu) e6
    refine ⟨m', ?_, hsame1.trans g2, g3, ?_, ?_, ?_, ?_⟩
    · rw [List.foldlM_cons]
      have : retractVar m v = ok { m.memo v c with tree := t' } := by
        unfold retractVar
        rw [f1, ok_bind]
        simp only
        rw [hlik, l1]; exact e1
      rw [this]; exact g1
    · intro u
      rw [g4 u]
      have e : ({ m.memo v c with tree := t' } : Model K).var u = if u = v then { m.var u with familyClique := some c } else m.var u := by
        show (m.memo v c).var u = _
        unfold memo setVar
        simp only
        by_cases e : u = v
        · subst e; simp
        · simp [e]
      rw [famOf_same hsame1, e]
      by_cases h1 : u = v
      · subst h1
        simp only [if_true, List.mem_cons, true_or, famOf_eq f2]
        split <;> rfl
      · simp only [h1, if_false, List.mem_cons, false_or]
    · refine g5.congr ?_
      intro x
      simp only [List.map_cons, List.prod_cons, factor]
      ring
    · intro d; rw [g6]; exact e5 d
    · intro h
      rw [g7 (fun u hu => h u (List.mem_cons_of_mem _ hu))]
      refine e7 ?_
      intro i hi
      unfold factor
      simp only
      rw [h v (List.mem_cons_self ..), List.getD_eq_getElem _ _ (by simpa using hi)]
      simp

theorem retracted_skel {card : Nat → Nat} (t : JTree K) : (t.retracted card).skel = t.skel := by
  unfold JTree.retracted JTree.skel
  simp [Function.comp_def]

theorem retracted_typed {card : Nat → Nat} {t : JTree K} (h : t.Typed card) : (t.retracted card).Typed card := by
  refine ⟨?_, ?_⟩
  · intro c cl hc
    unfold JTree.retracted at hc
    simp only [List.getElem?_map, Option.map_eq_some_iff] at hc
    obtain ⟨cl', h1, rfl⟩ := hc
    obtain ⟨n1, n2, n3⟩ := h.clq c cl' h1
    exact ⟨n1, n3, n3⟩
  · intro s sp hs
    rw [JTree.skel_vars (retracted_skel t), JTree.skel_vars (retracted_skel t)]
    unfold JTree.retracted at hs
    simp only [List.getElem?_map, Option.map_eq_some_iff] at hs
    obtain ⟨sp', h1, rfl⟩ := hs
    obtain ⟨n1, n2, n3, n4, n5⟩ := h.sep s sp' h1
    exact ⟨n1, ones_on n2.pos, ones_on n2.pos, n4, n5⟩

theorem retracted_phi {card : Nat → Nat} (t : JTree K) (c : Nat) (x : Asg) : (t.retracted card).phi card c x = t.origOf card c x := by
  unfold JTree.phi JTree.origOf JTree.retracted
  simp only [List.getElem?_map]
  cases t.cliques[c]? <;> rfl

theorem retracted_psi {card : Nat → Nat} {t : JTree K} (h : t.Typed card) (s : Nat) (x : Asg) : (t.retracted card).psi card s x = 1 := by
  unfold JTree.psi JTree.retracted
  simp only [List.getElem?_map]
  cases hs : t.sepsets[s]? with
  | none => rfl
  | some sp => exact sem_ones (h.sep s sp hs).2.1.pos x

theorem retracted_mark {card : Nat → Nat} (t : JTree K) (c : Nat) : (t.retracted card).markOf c = decide (c < t.cliques.length) := by
  unfold JTree.markOf JTree.retracted
  simp only [List.getElem?_map]
  by_cases h : c < t.cliques.length
  · rw [List.getElem?_eq_getElem h]; simp [h]
  · rw [List.getElem?_eq_none (by omega)]; simp [h]

theorem retracted_reps {K : Type} [Field K] [LinearOrder K] [IsStrictOrderedRing K] {net : Net K} {m : Model K} (h : Sound net m) :
    Reps { m with tree := m.tree.retracted net.card } net.card (fun x => net.tables (wrap net.card x)) := by
  unfold Reps
  simp only
  rw [JTree.skel_len (retracted_skel m.tree), JTree.skel_slen (retracted_skel m.tree)]
  refine ⟨?_, ?_, ?_⟩
  · intro x
    have hone : ∏ s ∈ Finset.range m.tree.sepsets.length, (JTree.st net.card (JTree.retracted net.card m.tree)).ψ s x = 1 :=
      Finset.prod_eq_one (fun s _ => retracted_psi h.typed s x)
    rw [← h.origs x, hone, mul_one]
    exact Finset.prod_congr rfl (fun c _ => retracted_phi m.tree c x)
  · intro c hc x hx
    have hx' : (m.tree.retracted net.card).phi net.card c x = 0 := hx
    rw [retracted_phi] at hx'
    rw [← h.origs x]
    exact Finset.prod_eq_zero (Finset.mem_range.mpr hc) hx'
  · intro s hs x hx
    have hx' : (m.tree.retracted net.card).psi net.card s x = 0 := hx
    rw [retracted_psi h.typed] at hx'
    exact absurd hx' one_ne_zero

/-- **global retraction** -/
theorem globalRetraction_spec {K : Type} [Field K] [LinearOrder K] [IsStrictOrderedRing K] {net : Net K} {m : Model K} (h : Sound net m) (ev : Nat → List K)
    (hev : ∀ v ∈ net.vars, (m.var v).likelihood = ev v ∧ (ev v).length = net.card v ∧ ∀ a ∈ ev v, 0 ≤ a) :
    ∃ m', m.globalRetraction = ok m' ∧ Same m m' ∧ Sound net m' ∧
      (∀ u, m'.var u = if u ∈ net.vars then { m.var u with familyClique := m.famOf u } else m.var u) ∧
      m'.Reps net.card (fun x => net.tables (wrap net.card x) * (net.vars.map (fun v => (ev v).getD (x v % net.card v) 0)).prod) ∧
      (∀ d, m'.tree.markOf d = decide (d < m.tree.cliques.length)) ∧
      ((∀ v ∈ net.vars, ev v = List.replicate (net.card v) 1) → m'.tree = m.tree.retracted net.card) := by
  obtain ⟨L, hL⟩ := h.good
  have hsame : Same m { m with tree := m.tree.retracted net.card } :=
    ⟨retracted_skel m.tree, rfl, rfl, fun _ => rfl, fun _ => rfl, fun _ => rfl, fun _ => rfl, fun _ => rfl⟩
  have hS : Sound net { m with tree := m.tree.retracted net.card } := h.same hsame (retracted_typed h.typed)
    ⟨fun c x => by rw [retracted_phi]; exact h.onneg c x, fun s x => by rw [retracted_psi h.typed]; exact zero_le_one⟩ (fun v hv => Or.inl rfl)
  obtain ⟨m', g1, g2, g3, g4, g5, g6, g7⟩ := fold_evidence ev net.vars { m with tree := m.tree.retracted net.card } _ hS (fun v hv => hv) hev (retracted_reps h)
  refine ⟨m', ?_, hsame.trans g2, g3, ?_, g5, ?_, g7⟩
  · unfold globalRetraction
    rw [JTree.unmarkAll_eq, ok_bind]
    have hb : m.tree.bare.cliques.length = m.tree.cliques.length := (JTree.bare_shape m.tree).len
    rw [hb, JTree.retract_spec hL h.typed, ok_bind]
    simp only
    have hv := h.vars
    rw [← hv] at g1
    exact g1
  · intro u
    rw [g4 u, famOf_same hsame]
  · intro d; rw [g6]; exact retracted_mark m.tree d

/-! ### likelihoods -/

theorem copy_eq {n : Nat} {src dst : List K} (hd : dst.length = n) (hs : src.length = n) :
    loop n (fun i l => do let x ← rd src i; wr l i x) dst = ok src := by
  rw [loop_fill hd (fun i => src.getD i 0)]
  · congr 1
    apply List.ext_getElem
    · simp [hs]
    · intro i h1 h2
      simp at h1
      simp [h2]
  · intro i hi l hl
    rw [rd_lt (by omega), ok_bind, wr_lt (by omega), List.getD_eq_getElem _ _ (by omega)]

theorem updateLikelihood_eq (m : Model K) (v : Nat) (e : List K) (h1 : (m.var v).likelihood.length = (m.var v).card) (h2 : e.length = (m.var v).card) :
    m.updateLikelihood v e = ok (m.setVar v { m.var v with likelihood := e }) := by
  unfold updateLikelihood
  have := copy_eq h1 h2
  exact congrArg (fun r => Res.bind r (fun l => ok (m.setVar v { m.var v with likelihood := l }))) this

theorem resetLikelihood_eq (m : Model K) (v : Nat) (h1 : (m.var v).likelihood.length = (m.var v).card) :
    m.resetLikelihood v = ok (m.setVar v { m.var v with likelihood := List.replicate (m.var v).card 1 }) := by
  unfold resetLikelihood
  rw [loop_fill h1 (fun _ => (1 : K)) (by intro i hi l hl; rw [wr_lt (by omega)]), ok_bind]
  have : (List.range (m.var v).card).map (fun _ => (1 : K)) = List.replicate (m.var v).card 1 := by
    apply List.ext_getElem <;> simp
  rw [this]

theorem setVar_same (m : Model K) (v : Nat) (r : VarRec K) (h : r.card = (m.var v).card ∧ r.parents = (m.var v).parents ∧ r.prior = (m.var v).prior ∧
    r.oldOutgoing = (m.var v).oldOutgoing ∧ r.outgoing = (m.var v).outgoing) : Same m (m.setVar v r) := by
  obtain ⟨h1, h2, h3, h4, h5⟩ := h
  refine ⟨rfl, rfl, rfl, ?_, ?_, ?_, ?_, ?_⟩ <;> intro u <;> unfold setVar <;> simp only <;> by_cases e : u = v
  all_goals first | (subst e; simp [h1, h2, h3, h4, h5]) | simp [e]

theorem setVar_var (m : Model K) (v u : Nat) (r : VarRec K) : (m.setVar v r).var u = if u = v then r else m.var u := by
  unfold setVar
  simp only
  by_cases e : u = v
  · subst e; simp
  · simp [e]

/-! ### reset -/

/-- the state after a reset -/
def resetState (net : Net K) (m : Model K) : Model K :=
  { m with
    tree := m.tree.retracted net.card
    var := fun u => if u ∈ net.vars then
      { m.var u with likelihood := List.replicate (net.card u) 1, priorEntered := false, familyClique := m.famOf u } else m.var u }

/-- one round of the loop of `reset` -/
def resetVar (m : Model K) (v : Nat) : Res (Model K) := do
  let m ← m.resetLikelihood v
  ok (m.setVar v { m.var v with priorEntered := false })

theorem fold_reset {net : Net K} : ∀ (vs : List Nat) (m : Model K), (∀ v, (m.var v).card = net.card v) →
    (∀ v ∈ vs, (m.var v).likelihood.length = net.card v) →
    ∃ m', vs.foldlM resetVar m = ok m' ∧ m'.tree = m.tree ∧ Same m m' ∧
      ∀ u, m'.var u = if u ∈ vs then { m.var u with likelihood := List.replicate (net.card u) 1, priorEntered := false } else m.var u := by
  intro vs
  induction vs with
  | nil => intro m _ _; exact ⟨m, rfl, rfl, Same.refl m, by simp⟩
  | cons v vs ih =>
    intro m hc hl
    obtain ⟨m1, hm1⟩ : ∃ m1, m1 = (m.setVar v { m.var v with likelihood := List.replicate (net.card v) 1, priorEntered := false }) := ⟨_, rfl⟩
    have hstep : resetVar m v = ok m1 := by
      unfold resetVar
      rw [resetLikelihood_eq m v (by rw [hc]; exact hl v (List.mem_cons_self ..)), ok_bind, hm1, hc]
      unfold setVar
      simp
    have hs1 : Same m m1 := by rw [hm1]; exact setVar_same m v _ ⟨rfl, rfl, rfl, rfl, rfl⟩
    have hv1 : ∀ u, m1.var u = if u = v then { m.var v with likelihood := List.replicate (net.card v) 1, priorEntered := false } else m.var u := by
      intro u; rw [hm1, setVar_var]
    obtain ⟨m', g1, g2, g3, g4⟩ := ih m1 (fun u => by rw [hs1.card]; exact hc u) (by
      intro u hu
      rw [hv1]
      by_cases e : u = v
      · subst e; simp
      · simp only [e, if_false]; exact hl u (List.mem_cons_of_mem _ hu))
    refine ⟨m', ?_, g2.trans (by rw [hm1]; rfl), hs1.trans g3, ?_⟩
    · rw [List.foldlM_cons, hstep]; exact g1
    · intro u
      rw [g4, hv1]
      by_cases h1 : u = v
      · subst h1
        simp
      · simp only [h1, if_false, List.mem_cons, false_or]

theorem reset_spec {K : Type} [Field K] [LinearOrder K] [IsStrictOrderedRing K] {net : Net K} {m : Model K} (h : Sound net m) (hl : ∀ v ∈ net.vars, (m.var v).likelihood.length = net.card v) :
    m.reset = ok (resetState net m) ∧ Same m (resetState net m) ∧ Holds net (resetState net m) (World.fresh net) := by
  obtain ⟨m1, g1, g2, g3, g4⟩ := fold_reset (net := net) net.vars m h.card hl
  have hS1 : Sound net m1 := h.same g3 (by rw [g2]; exact h.typed) (by rw [g2]; exact h.nonneg) (by
    intro v hv; left; rw [g4, if_pos hv])
  have hrep : ∀ a ∈ List.replicate (net.card 0) (1 : K), 0 ≤ a := by
    intro a ha; rw [List.eq_of_mem_replicate ha]; exact zero_le_one
  obtain ⟨m', k1, k2, k3, k4, k5, k6, k7⟩ := globalRetraction_spec hS1 (fun v => List.replicate (net.card v) 1) (by
    intro v hv
    rw [g4, if_pos hv]
    refine ⟨rfl, by simp, ?_⟩
    intro a ha; rw [List.eq_of_mem_replicate ha]; exact zero_le_one)
  have hm' : m' = resetState net m := by
    have hvar : m'.var = (resetState net m).var := by
      funext u
      rw [k4, g4, famOf_same g3]
      unfold resetState
      simp only
      by_cases e : u ∈ net.vars
      · simp only [e, if_true]
      · simp only [e, if_false]
    have htree : m'.tree = (resetState net m).tree := by
      rw [k7 (fun _ _ => rfl), g2]; rfl
    have h1 : m'.varList = m.varList := k2.varList.trans g3.varList
    have h2 : m'.independent = m.independent := k2.independent.trans g3.independent
    cases m'
    simp only at hvar htree h1 h2
    unfold resetState at hvar htree ⊢
    simp only at hvar htree
    rw [hvar, htree, h1, h2]
  rw [hm'] at k1 k2 k3 k5
  refine ⟨?_, g3.trans k2, k3, ⟨?_, ?_, ?_⟩, ?_⟩
  · unfold reset
    rw [h.vars]
    have : (net.vars.foldlM (fun (m : Model K) v => do
        let m ← m.resetLikelihood v
        ok (m.setVar v { m.var v with priorEntered := false })) m) = ok m1 := g1
    rw [this, ok_bind, k1]
  · intro v hv
    unfold resetState World.fresh
    simp only [hv, if_true]
    refine ⟨trivial, by simp, ?_⟩
    intro a ha; rw [List.eq_of_mem_replicate ha]; exact zero_le_one
  · intro v hv
    unfold resetState World.fresh
    simp only [hv, if_true]
  · intro v _ hp; cases hp
  · refine k5.congr ?_
    intro x
    unfold repd jointWeight World.fresh wrap
    simp

/-! ### evidence -/

theorem getD_nonneg {l : List K} (h : ∀ a ∈ l, 0 ≤ a) (i : Nat) : 0 ≤ l.getD i 0 := by
  by_cases hi : i < l.length
  · rw [List.getD_eq_getElem _ _ hi]; exact h _ (List.getElem_mem hi)
  · rw [List.getD_eq_default _ _ (by omega)]

/-- what operations change in the records of variables -/
def Keeps (net : Net K) (m m' : Model K) : Prop := Same m m' ∧ ∀ u, u ∉ net.vars → m'.var u = m.var u

theorem Keeps.trans {net : Net K} {a b c : Model K} (h : Keeps net a b) (g : Keeps net b c) : Keeps net a c :=
  ⟨h.1.trans g.1, fun u hu => (g.2 u hu).trans (h.2 u hu)⟩

theorem Keeps.refl (net : Net K) (m : Model K) : Keeps net m m := ⟨Same.refl m, fun _ _ => rfl⟩

theorem memo_keeps {net : Net K} {m : Model K} {v c : Nat} (hv : v ∈ net.vars) : Keeps net m (m.memo v c) := by
  refine ⟨memo_same m v c, ?_⟩
  intro u hu
  unfold memo
  rw [setVar_var, if_neg (ne_of_mem_of_not_mem hv hu).symm]

theorem setVar_keeps {net : Net K} {m : Model K} {v : Nat} (hv : v ∈ net.vars) (r : VarRec K) (h : r.card = (m.var v).card ∧ r.parents = (m.var v).parents ∧ r.prior = (m.var v).prior ∧
    r.oldOutgoing = (m.var v).oldOutgoing ∧ r.outgoing = (m.var v).outgoing) : Keeps net m (m.setVar v r) := by
  refine ⟨setVar_same m v r h, ?_⟩
  intro u hu
  rw [setVar_var, if_neg (ne_of_mem_of_not_mem hv hu).symm]

theorem evidence_prod {K : Type} [Field K] [LinearOrder K] [IsStrictOrderedRing K] {net : Net K} (hn : net.vars.Nodup) {v : Nat} (hv : v ∈ net.vars) (ev : Nat → List K) (e : List K) (y : Asg) :
    ∃ R, (net.vars.map (fun u => (ev u).getD (y u) 0)).prod = (ev v).getD (y v) 0 * R ∧
      (net.vars.map (fun u => (Function.update ev v e u).getD (y u) 0)).prod = e.getD (y v) 0 * R := by
  obtain ⟨R, h1, h2⟩ := prod_update hn hv (fun u => (ev u).getD (y u) 0) (fun u => (Function.update ev v e u).getD (y u) 0)
    (by intro u hu; simp [Function.update_of_ne hu])
  refine ⟨R, h1, ?_⟩
  rw [h2]; simp

theorem enterEvidence_spec {K : Type} [Field K] [LinearOrder K] [IsStrictOrderedRing K] {net : Net K} {m : Model K} {w : World K} (h : Holds net m w) {v : Nat} {e : List K} (hv : v ∈ net.vars)
    (he : e.length = net.card v) (hn : ∀ a ∈ e, 0 ≤ a) :
    ∃ m', m.enterEvidence v e = ok (0, m') ∧ Keeps net m m' ∧ Holds net m' (w.enter net v e) := by
  classical
  obtain ⟨c, f1, f2, f3, f4⟩ := findFamily_eq h.sound hv
  have h1 := h.memo f2
  obtain ⟨m1, hm1⟩ : ∃ m1, m1 = m.memo v c := ⟨_, rfl⟩
  rw [← hm1] at f1 h1
  have k1 : Keeps net m m1 := by rw [hm1]; exact memo_keeps hv
  have f3' : c < m1.tree.cliques.length := by rw [hm1]; exact f3
  have f4' : v ∈ m1.tree.varsOf c := by rw [hm1]; exact f4
  obtain ⟨l1, l2, l3⟩ := h1.told.lik v hv
  have hcard := h1.sound.card v
  have hloop : loop (m1.var v).card (fun i (r : Bool) => do
      let l ← rd (m1.var v).likelihood i
      let e ← rd e i
      ok (if l = 0 ∧ e ≠ 0 then true else r)) false = ok (if Contradicts (net.card v) (w.evidence v) e then true else false) := by
    rw [hcard]
    have := loop_any (n := net.card v) (f := fun i (r : Bool) => do
      let l ← rd (m1.var v).likelihood i
      let e ← rd e i
      ok (if l = 0 ∧ e ≠ 0 then true else r)) (p := fun i => (w.evidence v).getD i 0 = 0 ∧ e.getD i 0 ≠ 0) (b := true) (r0 := false)
      (by
        intro i hi r
        rw [l1, rd_lt (by omega), ok_bind, rd_lt (by omega), ok_bind, List.getD_eq_getElem _ _ (by omega), List.getD_eq_getElem _ _ (by omega)]) rfl
    rw [this]
    by_cases hh : Contradicts (net.card v) (w.evidence v) e
    · rw [if_pos hh]; exact congrArg ok (if_pos hh)
    · rw [if_neg hh]; exact congrArg ok (if_neg hh)
  by_cases hcon : Contradicts (net.card v) (w.evidence v) e
  · -- retraction
    rw [if_pos hcon] at hloop
    obtain ⟨m2, hm2⟩ : ∃ m2, m2 = m1.setVar v { m1.var v with likelihood := e } := ⟨_, rfl⟩
    have hup := updateLikelihood_eq m1 v e (by rw [l1, l2, hcard]) (by rw [he, hcard])
    rw [← hm2] at hup
    have k2 : Keeps net m1 m2 := by rw [hm2]; exact setVar_keeps hv _ ⟨rfl, rfl, rfl, rfl, rfl⟩
    have hvar2 : ∀ u, m2.var u = if u = v then { m1.var v with likelihood := e } else m1.var u := by intro u; rw [hm2, setVar_var]
    have hS2 : Sound net m2 := h1.sound.same k2.1 (by rw [hm2]; exact h1.sound.typed) (by rw [hm2]; exact h1.sound.nonneg) (by
      intro u _
      left
      rw [hvar2]
      split
      · rename_i e; rw [e]
      · rfl)
    obtain ⟨m', g1, g2, g3, g4, g5, _, _⟩ := globalRetraction_spec hS2 (Function.update w.evidence v e) (by
      intro u hu
      rw [hvar2]
      by_cases e' : u = v
      · subst e'; simp [he]; exact hn
      · simp only [e', if_false, Function.update_of_ne e', ne_eq, not_false_eq_true]; exact h1.told.lik u hu)
    refine ⟨m', ?_, k1.trans (k2.trans ⟨g2, ?_⟩), g3, ⟨?_, ?_, ?_⟩, ?_⟩
    · unfold enterEvidence
      rw [f1, ok_bind]
      simp only
      refine Eq.trans (congrArg (fun r => Res.bind r _) hloop) ?_
      simp only [ok_bind', Bool.not_true, Bool.false_eq_true, if_false, ok_bind, if_true, hup, g1]
    · intro u hu; rw [g4, if_neg hu]
    · intro u hu
      rw [g4, if_pos hu]
      simp only
      rw [hvar2]
      unfold World.enter
      simp only
      by_cases e' : u = v
      · subst e'; simp [he]; exact hn
      · simp only [e', if_false, Function.update_of_ne e', ne_eq, not_false_eq_true]; exact h1.told.lik u hu
    · intro u hu
      rw [g4, if_pos hu]
      simp only
      rw [hvar2]
      unfold World.enter
      simp only
      by_cases e' : u = v
      · subst e'; simp only [if_true]; exact h1.told.entered u hu
      · simp only [e', if_false]; exact h1.told.entered u hu
    · intro u _ hp
      unfold World.enter at hp
      simp only [if_pos hcon] at hp
      cases hp
    · refine g5.congr ?_
      intro x
      unfold repd jointWeight World.enter wrap
      simp only [if_pos hcon]
      simp
  · rw [if_neg hcon] at hloop
    obtain ⟨t', e1, e2, e3, e4, e5, e6, e7⟩ := multiply_spec (m := m1) (c := c) (v := v) (num := e) (den := some (w.evidence v)) h1.sound.typed h1.sound.nonneg
      f4' f3' (by omega) (by intro d hd; cases hd; omega) hn (by intro d hd; cases hd; exact l3) h1.reps
    obtain ⟨m2, hm2⟩ : ∃ m2 : Model K, m2 = { m1 with tree := t' } := ⟨_, rfl⟩
    rw [← hm2] at e1 e6
    have hvar2 : m2.var = m1.var := by rw [hm2]
    obtain ⟨m3, hm3⟩ : ∃ m3, m3 = m2.setVar v { m2.var v with likelihood := e } := ⟨_, rfl⟩
    have hup := updateLikelihood_eq m2 v e (by rw [hvar2, l1, l2, hcard]) (by rw [hvar2, he, hcard])
    rw [← hm3] at hup
    have k2 : Same m1 m2 := by rw [hm2]; exact ⟨e2, rfl, rfl, fun _ => rfl, fun _ => rfl, fun _ => rfl, fun _ => rfl, fun _ => rfl⟩
    have k3 : Keeps net m2 m3 := by rw [hm3]; exact setVar_keeps hv _ ⟨rfl, rfl, rfl, rfl, rfl⟩
    have hvar3 : ∀ u, m3.var u = if u = v then { m1.var v with likelihood := e } else m1.var u := by
      intro u; rw [hm3, setVar_var, hvar2]
    have htree3 : m3.tree = t' := by rw [hm3, hm2]; rfl
    refine ⟨m3, ?_, k1.trans (Keeps.trans ⟨k2, fun u _ => by rw [hvar2]⟩ k3), h1.sound.same (k2.trans k3.1) (by rw [htree3]; exact e3) (by rw [htree3]; exact e4) ?_, ⟨?_, ?_, ?_⟩, ?_⟩
    · unfold enterEvidence
      rw [f1, ok_bind]
      simp only
      refine Eq.trans (congrArg (fun r => Res.bind r _) hloop) ?_
      simp only [ok_bind', Bool.not_false, if_true, l1, e1, ok_bind, hup, Bool.false_eq_true, if_false]
    · intro u _
      left
      rw [hvar3]
      split
      · rename_i e; rw [e]
      · rfl
    · intro u hu
      rw [hvar3]
      unfold World.enter
      simp only
      by_cases e' : u = v
      · subst e'; simp [he]; exact hn
      · simp only [e', if_false, Function.update_of_ne e', ne_eq, not_false_eq_true]; exact h1.told.lik u hu
    · intro u hu
      rw [hvar3]
      unfold World.enter
      simp only
      by_cases e' : u = v
      · subst e'; simp only [if_true]; exact h1.told.entered u hu
      · simp only [e', if_false]; exact h1.told.entered u hu
    · intro u hu hp
      unfold World.enter at hp ⊢
      simp only [if_neg hcon] at hp ⊢
      exact h1.told.present u hu hp
    · have e6' : m3.Reps net.card _ := (by
        unfold Reps at e6 ⊢
        rw [htree3]; rw [hm2] at e6; exact e6)
      refine e6'.congr ?_
      intro x
      unfold repd jointWeight World.enter
      simp only [if_neg hcon]
      obtain ⟨R, r1, r2⟩ := evidence_prod h1.sound.nodup hv w.evidence e (wrap net.card x)
      rw [r1, r2]
      have hy : wrap net.card x v = x v % net.card v := rfl
      rw [hy]
      unfold factor
      simp only
      split
      · rename_i h0
        have hpos : 0 < net.card v := by
          have := h1.sound.typed.reg h1.sound.nonneg
          exact this.pos c v f4'
        have : e.getD (x v % net.card v) 0 = 0 := by
          by_contra hne
          exact hcon ⟨_, Nat.mod_lt _ hpos, h0, hne⟩
        rw [this]; simp
      · rename_i h0
        field_simp

theorem enterIndexObservation_spec {K : Type} [Field K] [LinearOrder K] [IsStrictOrderedRing K] {net : Net K} {m : Model K} {w : World K} (h : Holds net m w) {v : Nat} (hv : v ∈ net.vars) (i : Int) :
    ∃ m', m.enterIndexObservation v i = ok (0, m') ∧ Keeps net m m' ∧ Holds net m' (w.step net (.observe v i)) := by
  unfold enterIndexObservation World.step
  simp only
  by_cases hi : i < 0
  · rw [if_pos hi, if_pos hi]; exact ⟨m, rfl, Keeps.refl net m, h⟩
  · rw [if_neg hi, if_neg hi]
    have hc := h.sound.card v
    have hl : loop (m.var v).card (fun j e => wr e j (if (j : Int) = i then (1 : K) else 0)) (List.replicate (m.var v).card 0) = ok (indicator (net.card v) i) := by
      rw [hc, loop_fill (by simp) (fun j => if (j : Int) = i then (1 : K) else 0)]
      · rfl
      · intro j hj l hl; rw [wr_lt (by omega)]
    have : ∃ m', m.enterEvidence v (indicator (net.card v) i) = ok (0, m') ∧ _ ∧ _ := enterEvidence_spec h hv (by simp [indicator]) (by
      intro a ha
      unfold indicator at ha
      obtain ⟨j, _, rfl⟩ := List.mem_map.mp ha
      split
      · exact zero_le_one
      · exact le_refl _)
    obtain ⟨m', g1, g2, g3⟩ := this
    refine ⟨m', ?_, g2, g3⟩
    refine Eq.trans (congrArg (fun r => Res.bind r _) hl) ?_
    exact g1

/-! ### priors -/

open Classical in
/-- what was told when the priors of the variables `vs` are used -/
noncomputable def worldAfter {K : Type} [Field K] [LinearOrder K] [IsStrictOrderedRing K] (net : Net K) (h : Bool) (w : World K) (vs : List Nat) : World K :=
  { w with
    entered := fun v => w.entered v || decide (v ∈ vs ∧ (h = true → net.oldOut v = false))
    present := fun v => w.present v || decide (v ∈ vs ∧ w.entered v = false ∧ (h = true → net.oldOut v = false) ∧
      Usable (net.card v) (net.prior v)) }

theorem worldAfter_nil {K : Type} [Field K] [LinearOrder K] [IsStrictOrderedRing K] (net : Net K) (h : Bool) (w : World K) : worldAfter net h w [] = w := by
  cases w; simp [worldAfter]

theorem worldAfter_cons {K : Type} [Field K] [LinearOrder K] [IsStrictOrderedRing K] (net : Net K) (h : Bool) (w : World K) {v : Nat} {vs : List Nat} (hv : v ∉ vs) :
    worldAfter net h (worldAfter net h w [v]) vs = worldAfter net h w (v :: vs) := by
  classical
  unfold worldAfter
  simp only [World.mk.injEq, true_and]
  constructor
  · funext u
    by_cases e : u = v
    · subst e; simp [hv]
    · simp [e]
  · funext u
    by_cases e : u = v
    · subst e; simp [hv]
    · simp [e]

theorem usePrior_spec {K : Type} [Field K] [LinearOrder K] [IsStrictOrderedRing K] {net : Net K} {m : Model K} {w : World K} (h : Holds net m w) (hist : Bool) {v : Nat} (hv : v ∈ net.roots) :
    ∃ m', usePrior hist m v = ok m' ∧ Keeps net m m' ∧ Holds net m' (worldAfter net hist w [v]) := by
  classical
  have hvv := h.sound.rsub v hv
  obtain ⟨p1, p2, p3⟩ := h.sound.prior v hv
  have hent := h.told.entered v hvv
  have hold := h.sound.old v
  unfold usePrior
  rw [p1]
  simp only
  by_cases hen : w.entered v = true
  · -- already entered
    have hw : worldAfter net hist w [v] = w := by
      unfold worldAfter
      cases w
      simp only at hen
      simp only [World.mk.injEq, true_and, List.mem_singleton]
      constructor
      · funext u
        by_cases e : u = v
        · subst e; simp [hen]
        · simp [e]
      · funext u
        by_cases e : u = v
        · subst e; simp [hen]
        · simp [e]
    rw [hent, hen, hw]
    exact ⟨m, rfl, Keeps.refl net m, h⟩
  · have hen' : w.entered v = false := by simpa using hen
    rw [hent, hen', hold]
    simp only [Bool.not_false, if_true]
    by_cases hc : hist = true → net.oldOut v = false
    · have hcb : (!hist || !net.oldOut v) = true := by
        cases hist
        · rfl
        · simp [hc rfl]
      rw [hcb]
      simp only [if_true]
      obtain ⟨c, f1, f2, f3, f4⟩ := findFamily_eq h.sound hvv
      have h1 := h.memo f2
      obtain ⟨m1, hm1⟩ : ∃ m1, m1 = m.memo v c := ⟨_, rfl⟩
      rw [← hm1] at f1 h1
      have k1 : Keeps net m m1 := by rw [hm1]; exact memo_keeps hvv
      have f3' : c < m1.tree.cliques.length := by rw [hm1]; exact f3
      have f4' : v ∈ m1.tree.varsOf c := by rw [hm1]; exact f4
      have hpf : w.present v = false := by
        by_contra hp
        have := h.told.present v hv (by simpa using hp)
        rw [hen'] at this; cases this
      have hloop : loop (m1.var v).card (fun i (e : Bool) => do
          let x ← rd (net.prior v) i
          ok (if x > 0 then false else e)) true = ok (if Usable (net.card v) (net.prior v) then false else true) := by
        rw [h1.sound.card v]
        have := loop_any (n := net.card v) (f := fun i (e : Bool) => do
          let x ← rd (net.prior v) i
          ok (if x > 0 then false else e)) (p := fun i => 0 < (net.prior v).getD i 0) (b := false) (r0 := true)
          (by
            intro i hi r
            rw [rd_lt (by omega), ok_bind, List.getD_eq_getElem _ _ (by omega)]) rfl
        rw [this]
        by_cases hh : Usable (net.card v) (net.prior v)
        · rw [if_pos hh]; exact congrArg ok (if_pos hh)
        · rw [if_neg hh]; exact congrArg ok (if_neg hh)
      have hc' : hist = false ∨ net.oldOut v = false := by
        cases hist
        · exact Or.inl rfl
        · exact Or.inr (hc rfl)
      by_cases hu : Usable (net.card v) (net.prior v)
      · rw [if_pos hu] at hloop
        obtain ⟨t', e1, e2, e3, e4, e5, e6, e7⟩ := multiply_spec (m := m1) (c := c) (v := v) (num := net.prior v) (den := none) h1.sound.typed h1.sound.nonneg
          f4' f3' (by omega) (by intro d hd; cases hd) p3 (by intro d hd; cases hd) h1.reps
        obtain ⟨m2, hm2⟩ : ∃ m2 : Model K, m2 = { m1 with tree := t' } := ⟨_, rfl⟩
        rw [← hm2] at e1 e6
        have hvar2 : m2.var = m1.var := by rw [hm2]
        obtain ⟨m3, hm3⟩ : ∃ m3, m3 = m2.setVar v { m2.var v with priorEntered := true } := ⟨_, rfl⟩
        have k2 : Same m1 m2 := by rw [hm2]; exact ⟨e2, rfl, rfl, fun _ => rfl, fun _ => rfl, fun _ => rfl, fun _ => rfl, fun _ => rfl⟩
        have k3 : Keeps net m2 m3 := by rw [hm3]; exact setVar_keeps hvv _ ⟨rfl, rfl, rfl, rfl, rfl⟩
        have hvar3 : ∀ u, m3.var u = if u = v then { m1.var v with priorEntered := true } else m1.var u := by
          intro u; rw [hm3, setVar_var, hvar2]
        have htree3 : m3.tree = t' := by rw [hm3, hm2]; rfl
        refine ⟨m3, ?_, k1.trans (Keeps.trans ⟨k2, fun u _ => by rw [hvar2]⟩ k3), h1.sound.same (k2.trans k3.1) (by rw [htree3]; exact e3) (by rw [htree3]; exact e4) ?_, ⟨?_, ?_, ?_⟩, ?_⟩
        · unfold enterPrior
          rw [f1, ok_bind]
          simp only
          have : (Res.bind (loop (m1.var v).card (fun i (e : Bool) => do
              let x ← rd (net.prior v) i
              ok (if x > 0 then false else e)) true) (fun e => if e = true then ok (EINVAL, m1) else do
                let m ← m1.multiplyEvidence c v (net.prior v) none
                ok (0, m))) = ok (0, m2) := by
            rw [hloop, ok_bind']
            simp only [Bool.false_eq_true, if_false, e1, ok_bind]
          refine Eq.trans (congrArg (fun r => Res.bind r _) this) ?_
          rw [ok_bind', hm3]
        · intro u _
          left
          rw [hvar3]
          split
          · rename_i e; rw [e]
          · rfl
        · intro u huv
          rw [hvar3]
          by_cases e' : u = v
          · subst e'; simp only [if_true]; exact h1.told.lik u huv
          · simp only [e', if_false]; exact h1.told.lik u huv
        · intro u hu
          rw [hvar3]
          unfold worldAfter
          by_cases e' : u = v
          · subst e'; simp; exact Or.inr hc'
          · simp only [e', if_false, List.mem_singleton, false_and, decide_false, Bool.or_false]; exact h1.told.entered u hu
        · intro u hur hp
          unfold worldAfter at hp ⊢
          by_cases e' : u = v
          · subst e'; simp; exact Or.inr hc'
          · simp only [e', List.mem_singleton, false_and, decide_false, Bool.or_false] at hp ⊢
            exact h1.told.present u hur hp
        · have e6' : m3.Reps net.card _ := (by
            unfold Reps at e6 ⊢
            rw [htree3]; rw [hm2] at e6; exact e6)
          refine e6'.congr ?_
          intro x
          unfold repd jointWeight worldAfter factor
          simp only
          obtain ⟨R, r1, r2⟩ := prod_update h1.sound.rnodup hv (fun u => if w.present u = true then (net.prior u).getD (wrap net.card x u) 0 else 1)
            (fun u => if (w.present u || decide (u ∈ [v] ∧ w.entered u = false ∧ (hist = true → net.oldOut u = false) ∧ Usable (net.card u) (net.prior u))) = true then (net.prior u).getD (wrap net.card x u) 0 else 1)
            (by intro u hu'; simp [hu'])
          rw [r1, r2]
          have ee : (w.present v || decide (v ∈ [v] ∧ w.entered v = false ∧ (hist = true → net.oldOut v = false) ∧ Usable (net.card v) (net.prior v))) = true := by
            simp [hen', hu]; exact Or.inr hc'
          rw [if_pos ee, if_neg (by rw [hpf]; simp)]
          have hy : wrap net.card x v = x v % net.card v := rfl
          rw [hy]
          ring
      · rw [if_neg hu] at hloop
        obtain ⟨m3, hm3⟩ : ∃ m3, m3 = m1.setVar v { m1.var v with priorEntered := true } := ⟨_, rfl⟩
        have k3 : Keeps net m1 m3 := by rw [hm3]; exact setVar_keeps hvv _ ⟨rfl, rfl, rfl, rfl, rfl⟩
        have hvar3 : ∀ u, m3.var u = if u = v then { m1.var v with priorEntered := true } else m1.var u := by
          intro u; rw [hm3, setVar_var]
        have htree3 : m3.tree = m1.tree := by rw [hm3]; rfl
        refine ⟨m3, ?_, k1.trans k3, h1.sound.same k3.1 (by rw [htree3]; exact h1.sound.typed) (by rw [htree3]; exact h1.sound.nonneg) ?_, ⟨?_, ?_, ?_⟩, ?_⟩
        · unfold enterPrior
          rw [f1, ok_bind]
          simp only
          have : (Res.bind (loop (m1.var v).card (fun i (e : Bool) => do
              let x ← rd (net.prior v) i
              ok (if x > 0 then false else e)) true) (fun e => if e = true then ok (EINVAL, m1) else do
                let m ← m1.multiplyEvidence c v (net.prior v) none
                ok (0, m))) = ok (EINVAL, m1) := by
            rw [hloop, ok_bind']
            simp only [if_true]
          refine Eq.trans (congrArg (fun r => Res.bind r _) this) ?_
          rw [ok_bind', hm3]
        · intro u _
          left
          rw [hvar3]
          split
          · rename_i e; rw [e]
          · rfl
        · intro u huv
          rw [hvar3]
          by_cases e' : u = v
          · subst e'; simp only [if_true]; exact h1.told.lik u huv
          · simp only [e', if_false]; exact h1.told.lik u huv
        · intro u hu
          rw [hvar3]
          unfold worldAfter
          by_cases e' : u = v
          · subst e'; simp; exact Or.inr hc'
          · simp only [e', if_false, List.mem_singleton, false_and, decide_false, Bool.or_false]; exact h1.told.entered u hu
        · intro u hur hp
          unfold worldAfter at hp ⊢
          by_cases e' : u = v
          · subst e'; simp; exact Or.inr hc'
          · simp only [e', List.mem_singleton, false_and, decide_false, Bool.or_false] at hp ⊢
            exact h1.told.present u hur hp
        · have hpres : ∀ u, (worldAfter net hist w [v]).present u = w.present u := by
            intro u
            unfold worldAfter
            by_cases e' : u = v
            · subst e'; simp [hu]
            · simp [e']
          have e6' : m3.Reps net.card _ := (by
            have := h1.reps
            unfold Reps at this ⊢
            rw [htree3]; exact this)
          refine e6'.congr ?_
          intro x
          unfold repd jointWeight
          simp only [hpres]
          rfl
    · have hcb : (!hist || !net.oldOut v) = false := by
        simp only [Classical.not_imp] at hc
        rw [hc.1]
        simpa using hc.2
      rw [hcb]
      have hw : worldAfter net hist w [v] = w := by
        unfold worldAfter
        cases w
        simp only [World.mk.injEq, true_and, List.mem_singleton]
        constructor
        · funext u
          by_cases e : u = v
          · subst e; simp [hc]
          · simp [e]
        · funext u
          by_cases e : u = v
          · subst e; simp [hc]
          · simp [e]
      rw [hw]
      exact ⟨m, rfl, Keeps.refl net m, h⟩

theorem usePriors_spec {K : Type} [Field K] [LinearOrder K] [IsStrictOrderedRing K] {net : Net K} {m : Model K} {w : World K} (h : Holds net m w) (hist : Bool) :
    ∃ m', m.usePriors hist = ok m' ∧ Keeps net m m' ∧ Holds net m' (w.step net (.priors hist)) := by
  have key : ∀ (vs : List Nat) (m : Model K) (w : World K), Holds net m w → (∀ v ∈ vs, v ∈ net.roots) → vs.Nodup →
      ∃ m', vs.foldlM (usePrior hist) m = ok m' ∧ Keeps net m m' ∧ Holds net m' (worldAfter net hist w vs) := by
    intro vs
    induction vs with
    | nil => intro m w h _ _; rw [worldAfter_nil]; exact ⟨m, rfl, Keeps.refl net m, h⟩
    | cons v vs ih =>
      intro m w h hvs hn
      obtain ⟨n1, n2⟩ := List.nodup_cons.mp hn
      obtain ⟨m1, a1, a2, a3⟩ := usePrior_spec h hist (hvs v (List.mem_cons_self ..))
      obtain ⟨m2, b1, b2, b3⟩ := ih m1 _ a3 (fun u hu => hvs u (List.mem_cons_of_mem _ hu)) n2
      rw [worldAfter_cons net hist w n1] at b3
      exact ⟨m2, by rw [List.foldlM_cons, a1]; exact b1, a2.trans b2, b3⟩
  unfold usePriors
  rw [h.sound.roots]
  exact key net.roots m w h (fun v hv => hv) h.sound.rnodup

/-! ### inference -/

theorem makeConsistent_spec {K : Type} [Field K] [LinearOrder K] [IsStrictOrderedRing K] {net : Net K} {m : Model K} {w : World K} (h : Holds net m w) :
    ∃ m', m.makeConsistent = ok m' ∧ Keeps net m m' ∧ Holds net m' w ∧ m'.tree.Agrees net.card (m'.tree.st net.card) ∧
      (∀ c, m'.tree.markOf c = decide (c < m.tree.cliques.length)) ∧ m'.var = m.var := by
  obtain ⟨L, hL⟩ := h.sound.good
  obtain ⟨t1, t2, c1, c2, c3, c4, c5, c6, c7, c8⟩ := JTree.rounds hL h.sound.typed h.sound.nonneg
  have hs : Same m { m with tree := t2 } := ⟨c3, rfl, rfl, fun _ => rfl, fun _ => rfl, fun _ => rfl, fun _ => rfl, fun _ => rfl⟩
  refine ⟨{ m with tree := t2 }, ?_, ⟨hs, fun _ _ => rfl⟩, ⟨h.sound.same hs c4 c5 (fun v _ => Or.inl rfl), ⟨h.told.lik, h.told.entered, h.told.present⟩, ?_⟩, c6, c7, rfl⟩
  · unfold makeConsistent
    have hb : m.tree.bare.cliques.length = m.tree.cliques.length := (JTree.bare_shape m.tree).len
    have hb1 : t1.bare.cliques.length = t1.cliques.length := (JTree.bare_shape t1).len
    rw [JTree.unmarkAll_eq, ok_bind, hb, c1, ok_bind]
    simp only [ne_eq, not_true, if_false]
    rw [JTree.unmarkAll_eq, ok_bind, hb1, c2, ok_bind]
  · unfold Reps
    simp only
    rw [JTree.skel_len c3, JTree.skel_slen c3]
    exact c8 _ h.reps

theorem Sound.cover' {K : Type} [Field K] [LinearOrder K] [IsStrictOrderedRing K] {net : Net K} {m : Model K} (h : Sound net m) (v : Nat) : v ∈ net.vars ↔ ∃ e, e < m.tree.cliques.length ∧ v ∈ m.tree.varsOf e := h.cover v

theorem Holds.clique {K : Type} [Field K] [LinearOrder K] [IsStrictOrderedRing K] {net : Net K} {m : Model K} {w : World K} (h : Holds net m w) (ha : m.tree.Agrees net.card (m.tree.st net.card)) {c : Nat}
    (hc : c < m.tree.cliques.length) (x : Asg) :
    m.tree.phi net.card c x = sumOver net.card (without net.vars (m.tree.varsOf c)) (repd net w) x := by
  obtain ⟨L, hL⟩ := h.sound.good
  exact JTree.marginal hL h.sound.typed h.sound.nonneg ha h.reps h.sound.nodup h.sound.cover hc x

theorem bare_holds {K : Type} [Field K] [LinearOrder K] [IsStrictOrderedRing K] {net : Net K} {m : Model K} {w : World K} (h : Holds net m w) {t' : JTree K} (hb : t'.bare = m.tree.bare) :
    Keeps net m { m with tree := t' } ∧ Holds net { m with tree := t' } w := by
  have hsk := JTree.skel_of_bare hb
  have hst := JTree.st_of_bare (card := net.card) hb
  have hs : Same m { m with tree := t' } := ⟨hsk, rfl, rfl, fun _ => rfl, fun _ => rfl, fun _ => rfl, fun _ => rfl, fun _ => rfl⟩
  refine ⟨⟨hs, fun _ _ => rfl⟩, h.sound.same hs (h.sound.typed.of_bare hb) ?_ (fun v _ => Or.inl rfl), ⟨h.told.lik, h.told.entered, h.told.present⟩, ?_⟩
  · have e1 : ∀ c x, t'.phi net.card c x = m.tree.phi net.card c x := fun c x => congrFun (congrFun (congrArg St.φ hst) c) x
    have e2 : ∀ c x, t'.psi net.card c x = m.tree.psi net.card c x := fun c x => congrFun (congrFun (congrArg St.ψ hst) c) x
    exact ⟨fun c x => by rw [e1]; exact h.sound.nonneg.φ c x, fun c x => by rw [e2]; exact h.sound.nonneg.ψ c x⟩
  · have := h.reps
    unfold Reps at this ⊢
    simp only
    rw [hst, JTree.skel_len hsk, JTree.skel_slen hsk]
    exact this

theorem probMass_run {K : Type} [Field K] [LinearOrder K] [IsStrictOrderedRing K] {net : Net K} {m : Model K} {w : World K} (h : Holds net m w) :
    ∃ k t', m.probMass = ok (k, { m with tree := t' }) ∧ t'.bare = m.tree.bare := by
  obtain ⟨L, hL⟩ := h.sound.good
  obtain ⟨t', h1, h2, h3⟩ := JTree.mass_spec hL h.sound.typed
  unfold probMass
  rw [h1, ok_bind]
  exact ⟨_, t', rfl, h2⟩

theorem probMass_spec {K : Type} [Field K] [LinearOrder K] [IsStrictOrderedRing K] {net : Net K} {m : Model K} {w : World K} (h : Holds net m w) (ha : m.tree.Agrees net.card (m.tree.st net.card)) (x : Asg) :
    ∃ t', m.probMass = ok (sumOver net.card net.vars (repd net w) x, { m with tree := t' }) ∧ t'.bare = m.tree.bare := by
  obtain ⟨L, hL⟩ := h.sound.good
  obtain ⟨t', h1, h2, h3⟩ := JTree.mass_total hL h.sound.typed h.sound.nonneg ha h.reps h.sound.nodup h.sound.cover x
  refine ⟨t', ?_, h2⟩
  unfold probMass
  rw [h1, ok_bind]

end Model
end Nip
