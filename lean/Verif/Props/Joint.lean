import Verif.JointLemmas
import Verif.Props.Inference

/-!
# C65: the joint probability of several variables
-/

namespace Nip.Props

open Nip Res Spec

set_option linter.unusedSectionVars false

variable {K : Type} [Field K] [LinearOrder K]

/-- The table of the joint distribution of the variables `vars`: its dimensions are the variables in the given order, and a cell is the
weight of all assignments with these states divided by the weight of all. -/
def IsJoint (net : Net K) (w : World K) (vars : List Nat) (p : Potential K) : Prop :=
  p.card = vars.map net.card ∧ p.data.length = p.card.prod ∧
    ∀ x, Legal net.card net.vars x → p.at' (vars.map x) = marginalWeight net w vars x / totalWeight net w

/-- **C65**, the claim about a file, a history before inference and a set of variables. -/
def GivesJoint (ptr : Nat) (f : NetFile K) (ops : List (Op K)) (vars : List Nat) : Prop :=
  ∃ m p m', NetFile.runFile ptr f (ops ++ [.propagate]) = ok m ∧ m.getJointProbability vars = ok (some p, m') ∧
    IsJoint f.net ((World.fresh f.net).after f.net ops) vars p

theorem normalise_joint {card : Nat → Nat} {vars : List Nat} {p : Potential K} (hp : TableOn card vars p) (hs : p.data.sum ≠ 0) :
    ∃ q, p.normalise = ok q ∧ TableOn card vars q ∧ ∀ x, sem card vars q x = sem card vars p x / p.data.sum := by
  refine ⟨{ p with data := p.data.map (· / p.data.sum) }, ?_, ⟨⟨by simp only [List.length_map]; exact hp.wf.1, hp.wf.2⟩, hp.card_eq⟩, ?_⟩
  · unfold Potential.normalise
    have : p.size = p.data.length := rfl
    rw [this, normaliseArray_full, ok_bind, if_neg hs]
  · intro x
    have hc := hp.inRange x
    have hl := position_lt hc
    rw [← hp.wf.1] at hl
    unfold sem Potential.at' cellOf
    simp only
    rw [List.getD_eq_getElem _ _ (by simpa using hl), List.getD_eq_getElem _ _ hl, List.getElem_map]

theorem sumOver_dep {card : Nat → Nat} (V : List Nat) {g : (Nat → Nat) → K} (hg : ∀ z z', (∀ v ∈ V, z v = z' v) → g z = g z') (vs : List Nat) :
    ∀ {x y : Nat → Nat}, (∀ v ∈ V, v ∉ vs → x v = y v) → sumOver card vs g x = sumOver card vs g y := by
  induction vs with
  | nil => intro x y h; exact hg x y (fun v hv => h v hv (by simp))
  | cons u vs ih =>
    intro x y h
    simp only [sumOver]
    refine Finset.sum_congr rfl fun i _ => ih ?_
    intro v hv hn
    by_cases e : v = u
    · subst e; simp
    · rw [Function.update_of_ne e, Function.update_of_ne e]
      exact h v hv (by simp [e, hn])

variable [IsStrictOrderedRing K]

/-- The tree of a model with at least two cliques: the first clique has a neighbour. -/
theorem first_neighbour {net : Net K} {m : Model K} (h : Model.Sound net m) (h2 : 2 ≤ m.tree.cliques.length) :
    ∃ (cl : Clique K) (s d : Nat) (l : List Nat) (sp : Sepset K), m.tree.cliques[0]? = some cl ∧ cl.sepsets = s :: l ∧ m.tree.sepsets[s]? = some sp ∧
      (sp.first = d ∧ sp.second = 0 ∨ sp.first = 0 ∧ sp.second = d) ∧ d < m.tree.cliques.length ∧ d ≠ 0 := by
  obtain ⟨L, hL⟩ := h.good
  obtain ⟨F, hF⟩ := JTree.Good.rooted hL h.typed (c := 0) (by omega)
  cases F with
  | nil =>
    have := (hF.nodes 1).2 (by omega)
    simp [Forest.nodes] at this
  | cons s d k r =>
    obtain ⟨cl, hcl⟩ : ∃ cl, m.tree.cliques[0]? = some cl := ⟨_, List.getElem?_eq_getElem (by omega)⟩
    have ht := hF.sub.tops
    have e : (m.tree.adj 0).filter (fun s => some s ≠ none) = m.tree.adj 0 := by simp
    rw [e] at ht
    unfold JTree.adj at ht
    rw [hcl] at ht
    obtain ⟨hj, _⟩ := hF.sub.rep
    obtain ⟨sp, h3, h4⟩ := JTree.joins_sep hj
    have hnd := hF.sub.nodup
    have hd : d ≠ 0 := by
      intro e
      subst e
      simp [Forest.nodes] at hnd
    exact ⟨cl, s, d, _, sp, hcl, ht, h3, h4.symm, hF.sub.lt d (by simp [Forest.nodes]), hd⟩

/-- **C65** is false for all models with more than one clique: whatever happened before and whatever the variables are, no table is ever
returned; the function gives up or reads outside its arrays. -/
theorem C65_two_cliques_refuted (ptr : Nat) {f : NetFile K} (hf : f.Valid) {ops : List (Op K)} (ho : ∀ op ∈ ops, op.Valid f.net) :
    ∃ m, NetFile.runFile ptr f ops = ok m ∧ (2 ≤ m.tree.cliques.length → ∀ vars : List Nat, vars ≠ [] → vars.Nodup → (∀ v ∈ vars, v ∈ f.vars) →
      ∀ p m', m.getJointProbability vars ≠ ok (some p, m')) := by
  obtain ⟨m, h1, h2, _⟩ := runFile_spec ptr hf ho
  refine ⟨m, h1, ?_⟩
  intro hc vars hv hn hs p m' h
  obtain ⟨cl, s, d, l, sp, g1, g2, g3, g4, g5, g6⟩ := first_neighbour h2.sound hc
  unfold Model.getJointProbability at h
  rw [JTree.unmarkAll_eq, ok_bind] at h
  obtain ⟨⟨o, t⟩, h3, h⟩ := bind_ok h
  cases o with
  | none => cases h
  | some q =>
    have hcard : ∀ v, (m.var v).card = f.card v := h2.sound.card
    have hcv : ∀ v ∈ cl.vars, v ∈ f.vars := by
      intro v hv
      have := h2.sound.varsOf_sub (c := 0) v (by rw [JTree.varsOf_eq g1]; exact hv)
      exact this
    refine JTree.gather_fails (t := m.tree.bare) hv _ (cl := { cl with mark := false }) (c := 0) (s := s) (l := l) (sp := sp) (d := d) ?_ g2 g3 g4 ?_ g6 ?_ ?_ ?_ hn
      (h2.sound.typed.clq 0 cl g1).1 h3
    · unfold JTree.bare
      simp only [List.getElem?_map, g1, Option.map_some]
    · unfold JTree.bare; simpa using g5
    · unfold JTree.markOf JTree.bare
      simp only [List.getElem?_map, List.getElem?_eq_getElem g5, Option.map_some]
    · intro v hv
      show 0 < (m.var v).card
      rw [hcard]; exact hf.states v (hs v hv)
    · intro v hv
      show 0 < (m.var v).card
      rw [hcard]; exact hf.states v (hcv v hv)

/-- **C65** is false whenever the model has more than one clique. -/
theorem C65_refuted (ptr : Nat) {f : NetFile K} (hf : f.Valid) {ops : List (Op K)} (ho : ∀ op ∈ ops, op.Valid f.net) {vars : List Nat}
    (hv : vars ≠ []) (hn : vars.Nodup) (hs : ∀ v ∈ vars, v ∈ f.vars)
    (htwo : ∀ m, NetFile.runFile ptr f (ops ++ [.propagate]) = ok m → 2 ≤ m.tree.cliques.length) : ¬ GivesJoint ptr f ops vars := by
  rintro ⟨m, p, m', h1, h2, _⟩
  obtain ⟨m0, h3, h4⟩ := C65_two_cliques_refuted ptr hf (ops := ops ++ [.propagate]) (by
    intro op hop
    rcases List.mem_append.1 hop with h | h
    · exact ho op h
    · rw [List.mem_singleton.1 h]; trivial)
  rw [h1] at h3
  cases h3
  exact h4 (htwo m h1) vars hv hn hs p m' h2

/-- **C65** (partial).  It holds for models with a single clique (and for no variables at all), if the evidence is possible.  What is missing:
all other models, for which it is false. -/
theorem C65_one_clique_partial (ptr : Nat) {f : NetFile K} (hf : f.Valid) {ops : List (Op K)} (ho : ∀ op ∈ ops, op.Valid f.net)
    (hpos : totalWeight f.net ((World.fresh f.net).after f.net ops) ≠ 0) {vars : List Nat} (hn : vars.Nodup) (hs : ∀ v ∈ vars, v ∈ f.vars)
    (hone : vars = [] ∨ ∀ m, NetFile.runFile ptr f (ops ++ [.propagate]) = ok m → m.tree.cliques.length = 1) :
    GivesJoint ptr f ops vars := by
  obtain ⟨w, hw⟩ : ∃ w, w = (World.fresh f.net).after f.net ops := ⟨_, rfl⟩
  obtain ⟨m, h1, h2, h3⟩ := runFile_consistent ptr hf ho (asks := []) (by simp) (by simp)
  unfold GivesJoint
  rw [← hw] at hpos h2 ⊢
  have hl := net_local hf
  by_cases hv : vars = []
  · subst hv
    refine ⟨m, ⟨[], [1]⟩, { m with tree := m.tree.bare }, h1, ?_, rfl, rfl, ?_⟩
    · unfold Model.getJointProbability
      rw [JTree.unmarkAll_eq, ok_bind]
      have e : JTree.gather (fun v => (m.var v).card) [] (m.tree.bare.cliques.length + 1) m.tree.bare 0 [] =
          ok (some (⟨[], [1]⟩ : Potential K), m.tree.bare) := rfl
      rw [e]
      simp only [ok_bind]
      have e2 : (⟨[], [1]⟩ : Potential K).normalise = ok ⟨[], [1]⟩ := by
        unfold Potential.normalise
        show (Potential.normaliseArray [1] 0 ([1] : List K).length >>= _) = _
        rw [normaliseArray_full, ok_bind, if_neg (by simp)]
        simp
      rw [e2, ok_bind]
    · intro x hx
      show (1 : K) = _
      have : marginalWeight f.net w [] x = totalWeight f.net w := by
        unfold marginalWeight totalWeight
        have e : f.net.vars.filter (· ∉ ([] : List Nat)) = f.net.vars := by simp
        rw [e]
        exact sumOver_dep f.net.vars (fun z z' h => jointWeight_congr hl w h) _ (fun v hv hn => absurd hv hn)
      rw [this, div_self hpos]
  · have hlen : m.tree.cliques.length = 1 := (hone.resolve_left hv) m h1
    obtain ⟨cl, hcl⟩ : ∃ cl, m.tree.cliques[0]? = some cl := ⟨_, List.getElem?_eq_getElem (by omega)⟩
    obtain ⟨c1, c2, _⟩ := h2.sound.typed.clq 0 cl hcl
    have hvars : m.tree.varsOf 0 = cl.vars := JTree.varsOf_eq hcl
    have hsub : vars ⊆ cl.vars := by
      intro v hv
      obtain ⟨c, hc, hvc⟩ := (h2.sound.cover v).1 (hs v hv)
      have : c = 0 := by omega
      subst this
      rw [← hvars]; exact hvc
    have hseps : cl.sepsets = [] := by
      obtain ⟨L, hL⟩ := h2.sound.good
      obtain ⟨F, hF⟩ := JTree.Good.rooted hL h2.sound.typed (c := 0) (by omega)
      cases F with
      | cons s d k r =>
        have h4 := hF.sub.lt d (by simp [Forest.nodes])
        have hd := hF.sub.nodup
        have : d = 0 := by omega
        subst this
        simp [Forest.nodes] at hd
      | nil =>
        have ht := hF.sub.tops
        have e : (m.tree.adj 0).filter (fun s => some s ≠ none) = m.tree.adj 0 := by simp
        rw [e] at ht
        unfold JTree.adj at ht
        rw [hcl] at ht
        exact ht
    have hcard : (fun v => (m.var v).card) = f.card := funext h2.sound.card
    have hcl' : m.tree.bare.cliques[0]? = some { cl with mark := false } := by
      unfold JTree.bare
      simp only [List.getElem?_map, hcl, Option.map_some]
    obtain ⟨p, t', g1, _, g3, g4⟩ := JTree.gather_single (card := f.card) hv hn m.tree.bare.cliques.length hcl' hseps hsub c1 c2
    have hphi : m.tree.phi f.net.card 0 = sem f.net.card cl.vars cl.p := by
      funext x; unfold JTree.phi; rw [hcl]
    have hsem : ∀ x, sem f.card vars p x = sumOver f.card (without f.vars vars) (repd f.net w) x := by
      intro x
      rw [g4]
      have := h2.part h3 (c := 0) (by omega) (B := vars) (fun v hv => by rw [hvars]; exact hsub hv) x
      rw [hphi, hvars] at this
      exact this
    have hnd : f.vars.Nodup := hf.sorted.imp ne_of_lt
    have hsum : p.data.sum = totalWeight f.net w := by
      rw [data_sum hn g3 (fun _ => 0), sumOver_congr' hsem, ← sumOver_append]
      unfold totalWeight
      rw [← repd_sum hl w _ (fun v hv hn => absurd hv hn)]
      refine sumOver_perm ?_ _ _
      rw [List.perm_ext_iff_of_nodup _ (show f.net.vars.Nodup from hnd)]
      · intro u
        rw [List.mem_append, mem_without]
        constructor
        · rintro (hu | hu)
          · exact hs u hu
          · exact hu.1
        · intro hu
          by_cases e : u ∈ vars
          · exact Or.inl e
          · exact Or.inr ⟨hu, e⟩
      · refine List.nodup_append.mpr ⟨hn, hnd.filter _, ?_⟩
        intro a ha b hb e
        subst e
        exact (mem_without.mp hb).2 ha
    obtain ⟨q, q1, q2, q3⟩ := normalise_joint g3 (by rw [hsum]; exact hpos)
    refine ⟨m, q, { m with tree := t' }, h1, ?_, q2.card_eq, q2.wf.1, ?_⟩
    · unfold Model.getJointProbability
      rw [JTree.unmarkAll_eq, ok_bind, hcard, g1, ok_bind]
      simp only
      rw [q1, ok_bind]
    · intro x hx
      have hst : states f.card vars x = vars.map x := List.map_congr_left (fun v hv => Nat.mod_eq_of_lt (hx v (hs v hv)))
      have := q3 x
      unfold sem at this
      rw [hst] at this
      rw [this, hsum]
      congr 1
      have e : p.at' (vars.map x) = sem f.card vars p x := by unfold sem; rw [hst]
      rw [e, hsem]
      exact repd_sum hl w _ (fun v hv _ => hx v hv)

/-- The joint table after a history, for reading. -/
def jointOf (f : NetFile ℚ) (ops : List (Op ℚ)) (vars : List Nat) : Res (Option (List Nat × List ℚ)) := do
  let m ← NetFile.runFile 8 f ops
  let (p, _) ← m.getJointProbability vars
  ok (p.map (fun p => (p.card, p.data)))

theorem after_spec {f : NetFile ℚ} {ops : List (Op ℚ)} {p : Model ℚ → Bool} (h : after f ops p = true) : ∀ m, NetFile.runFile 8 f ops = ok m → p m = true := by
  intro m hm
  unfold after at h
  rw [hm] at h
  exact h

/-- Two variables in one clique: the hypotheses of the partial theorem hold. -/
example : GivesJoint 8 twoNodes [.priors false, .observe 2 1] [2, 1] :=
  C65_one_clique_partial 8 twoNodes_valid (by
      intro op hop
      simp only [List.mem_cons, List.not_mem_nil, or_false] at hop
      rcases hop with rfl | rfl
      · trivial
      · show 2 ∈ [1, 2]; simp)
    (by
      obtain ⟨m, m', h1, h2⟩ := C34_mass_is_likelihood 8 twoNodes_valid (ops := [.priors false, .observe 2 1]) (asks := []) (by
        intro op hop
        simp only [List.mem_cons, List.not_mem_nil, or_false] at hop
        rcases hop with rfl | rfl
        · trivial
        · show 2 ∈ [1, 2]; simp) (by simp) (by simp)
      have h3 : massOf [.priors false, .observe 2 1, .propagate] = some (5 / 8) := by decide +kernel
      unfold massOf at h3
      replace h1 : NetFile.runFile 8 twoNodes [.priors false, .observe 2 1, .propagate] = ok m := h1
      rw [h1] at h3
      simp only [ok_bind'] at h3
      rw [h2] at h3
      simp only [Option.some.injEq] at h3
      rw [h3]; norm_num)
    (by decide) (by decide)
    (Or.inr (fun m hm => by
      have h : after twoNodes [.priors false, .observe 2 1, .propagate] (fun m => m.tree.cliques.length == 1) = true := by decide +kernel
      simpa using after_spec h m hm))

/-- The table, with the dimensions in either order. -/
example : jointOf twoNodes [.priors false, .propagate] [2, 1] = ok (some ([2, 2], [9 / 40, 1 / 40, 3 / 20, 3 / 5])) ∧
    jointOf twoNodes [.priors false, .propagate] [1, 2] = ok (some ([2, 2], [9 / 40, 3 / 20, 1 / 40, 3 / 5])) ∧
    jointOf twoNodes [.priors false, .propagate] [2] = ok (some ([2], [3 / 8, 5 / 8])) := by decide +kernel

/-- A chain has two cliques.  If a variable wanted is in the separator, the mapping is read outside its array; otherwise the function gives up. -/
example : after chain [.priors false, .propagate] (fun m => m.tree.cliques.length == 2) = true ∧
    jointOf chain [.priors false, .propagate] [1, 2] = ub ∧ jointOf chain [.priors false, .propagate] [2] = ub ∧
    jointOf chain [.priors false, .propagate] [1, 3] = ok none ∧ jointOf chain [.priors false, .propagate] [1] = ok none := by decide +kernel

end Nip.Props
