import Verif.MStep
import Verif.Props.Inference
import Verif.Props.Dynamic

/-!
# Property C51: the tables learned

What counts are and what a network with tables made of counts is, is said in `Verif/Spec/Learn.lean`.
-/

namespace Nip

open Res Spec

set_option linter.unusedSectionVars false

variable {K : Type} [Field K] [LinearOrder K] [IsStrictOrderedRing K]

theorem runFile_parents (ptr : Nat) {f : NetFile K} (hf : f.Valid) {ops : List (Op K)} (ho : ∀ op ∈ ops, op.Valid f.net) :
    ∃ m w, NetFile.runFile ptr f ops = ok m ∧ Model.Holds f.net m w ∧ ∀ v, (m.var v).parents = f.givens v := by
  obtain ⟨m, h1, h2, h3⟩ := runFile_spec ptr hf ho
  obtain ⟨m0, b1, b2, b3, _⟩ := build_spec ptr hf
  refine ⟨m, _, h1, h2, ?_⟩
  intro v
  rw [(h3 m0 b1).1.parents, (b3 v).1, givens_eq]

theorem cell_inRange {f : NetFile K} (hf : f.Valid) {v : Nat} (hv : v ∈ f.vars) {x : Nat → Nat} (hx : Legal f.card f.vars x) :
    InRange ((v :: f.givens v).map f.card) (f.cell v x) := by
  have : f.cell v x = states f.card (v :: f.givens v) x := by
    rw [cell_states]
    unfold NetFile.cell
    have h1 : ∀ u ∈ v :: f.givens v, wrap f.card x u = x u := fun u hu => Nat.mod_eq_of_lt (hx u (cell_sub hf hv u hu))
    rw [h1 v (List.mem_cons_self ..)]
    congr 1
    apply List.map_congr_left
    intro u hu
    exact (h1 u (List.mem_cons_of_mem _ hu)).symm
  rw [this]
  exact states_inRange (fun u hu => hf.states u (cell_sub hf hv u hu)) x

namespace Props

/-- **C51** Whatever has been done with a model made from a file, and for any array of tables of non-negative counts: the M-step succeeds.  Each
number of the new tables is the share of the count among those for the same states of the parents; so the numbers add up to one, unless all the
counts are zero.  The product of the tables of the cliques is the product of the new tables of the variables with parents, the
separators are one, and the priors of the variables without parents are their new tables. -/
theorem C51_new_tables (ptr : Nat) {f : NetFile K} (hf : f.Valid) {ops : List (Op K)} (ho : ∀ op ∈ ops, op.Valid f.net) {params : List (Potential K)}
    (hc : CountTables f params) :
    ∃ m params' m', NetFile.runFile ptr f ops = ok m ∧ mStep params m = ok (0, params', m') ∧ CountTables f params' ∧
      (∀ v ∈ f.vars, ∀ x, Legal f.card f.vars x →
        countsIn f params' v (f.cell v x) =
            countsIn f params v (f.cell v x) / ∑ j ∈ Finset.range (f.card v), countsIn f params v (j :: (f.givens v).map x) ∧
          (0 < ∑ j ∈ Finset.range (f.card v), countsIn f params v (j :: (f.givens v).map x) →
            ∑ j ∈ Finset.range (f.card v), countsIn f params' v (j :: (f.givens v).map x) = 1)) ∧
      (∀ x, Legal f.card f.vars x → sepProduct m'.tree x = 1 ∧
        cliqueProduct m'.tree x = ((f.vars.filter (fun v => decide (f.givens v ≠ []))).map (fun v => countsIn f params' v (f.cell v x))).prod) ∧
      ∀ v ∈ f.vars, f.givens v = [] → (m'.var v).prior = some ((List.range (f.card v)).map (fun i => countsIn f params' v [i])) := by
  obtain ⟨m, w, h1, h2, h3⟩ := runFile_parents ptr hf ho
  obtain ⟨params', m', g1, g2, g3, g4, g5, g6, g7, g8, _⟩ := mStep_spec hf h2.carries h3 hc
  have hcol : ∀ v ∈ f.vars, ∀ x, Legal f.card f.vars x → ∀ j, j < f.card v →
      InRange ((v :: f.givens v).map f.card) (j :: (f.givens v).map x) := by
    intro v hv x hx j hj
    have := cell_inRange hf hv hx
    unfold NetFile.cell at this
    cases this with
    | cons _ ht => exact List.Forall₂.cons hj ht
  have hleg : ∀ x, Legal f.card f.vars x → LegalFor f.card m'.tree x := by
    intro x hx cl hcl v hv
    refine hx v ?_
    obtain ⟨c, hlt, e⟩ := List.getElem_of_mem hcl
    exact (g4.sound.cover v).mpr ⟨c, hlt, by rw [JTree.varsOf_eq (List.getElem?_eq_getElem hlt), e]; exact hv⟩
  have hprodpsi : ∀ x, ∏ s ∈ Finset.range m'.tree.sepsets.length, m'.tree.psi f.card s x = 1 := fun x => Finset.prod_eq_one fun s _ => g8 s x
  have htyped : m'.tree.Typed f.card := g4.sound.typed
  refine ⟨m, params', m', h1, g1, g2, ?_, ?_, ?_⟩
  · intro v hv x hx
    refine ⟨g3 v hv _ (cell_inRange hf hv hx), ?_⟩
    intro hpos
    have : ∀ j ∈ Finset.range (f.card v), countsIn f params' v (j :: (f.givens v).map x) =
        countsIn f params v (j :: (f.givens v).map x) / ∑ j ∈ Finset.range (f.card v), countsIn f params v (j :: (f.givens v).map x) :=
      fun j hj => g3 v hv _ (hcol v hv x hx j (Finset.mem_range.mp hj))
    rw [Finset.sum_congr rfl this, ← Finset.sum_div, div_self (ne_of_gt hpos)]
  · intro x hx
    refine ⟨by rw [sepProduct_psi htyped (hleg x hx)]; exact hprodpsi x, ?_⟩
    rw [cliqueProduct_phi (card := f.card) (hleg x hx)]
    have hr := g4.reps.prod x
    have e1 : ∏ c ∈ Finset.range m'.tree.cliques.length, m'.tree.phi f.card c x =
        repd (f.relearn (countsIn f params)).net (World.fresh (f.relearn (countsIn f params)).net) x *
          ∏ s ∈ Finset.range m'.tree.sepsets.length, m'.tree.psi f.card s x := hr
    rw [e1, hprodpsi, mul_one, repd_fresh (relearn_valid hf (fun v c => countsIn_nonneg hc v c))]
    show (f.relearn (countsIn f params)).net.tables (wrap f.card x) = _
    rw [relearn_tables hf]
    congr 1
    apply List.map_congr_left
    intro v hv
    have hv' := (List.mem_filter.mp hv).1
    rw [g3 v hv' _ (cell_inRange hf hv' hx), cell_states]
    congr 1
    unfold NetFile.cell
    have h1 : ∀ u ∈ v :: f.givens v, wrap f.card x u = x u := fun u hu => Nat.mod_eq_of_lt (hx u (cell_sub hf hv' u hu))
    rw [h1 v (List.mem_cons_self ..)]
    congr 1
    exact List.map_congr_left fun u hu => h1 u (List.mem_cons_of_mem _ hu)
  · intro v hv hp
    obtain ⟨k1, k2, k3⟩ := g4.sound.prior v (by rw [relearn_roots hf]; exact (mem_roots hf).mpr ⟨hv, hp⟩)
    rw [k1]
    congr 1
    rw [relearn_prior hf _ hv hp]
    apply List.map_congr_left
    intro i hi
    rw [g3 v hv [i] (by rw [hp]; exact List.Forall₂.cons (List.mem_range.mp hi) List.Forall₂.nil)]

/-- **C51** After the M-step the model is one of the network with the new tables: whatever is done then, posterior probabilities are those of
that network. -/
theorem C51_model_relearned (ptr : Nat) {f : NetFile K} (hf : f.Valid) {ops : List (Op K)} (ho : ∀ op ∈ ops, op.Valid f.net) {params : List (Potential K)}
    (hc : CountTables f params) {f' : NetFile K} (hf' : f' = f.relearn (countsIn f params)) {later asks : List (Op K)}
    (hl : ∀ op ∈ later, op.Valid f'.net) (ha : ∀ op ∈ asks, op.Valid f'.net) (hq : ∀ op ∈ asks, op.IsQuestion) {v : Nat} (hv : v ∈ f.vars) :
    ∃ m params' m1 m2 r m3, NetFile.runFile ptr f ops = ok m ∧ mStep params m = ok (0, params', m1) ∧
      m1.performAll (later ++ .propagate :: asks) = ok m2 ∧ m2.getProbability v = ok (some r, m3) ∧
      r.length = f.card v ∧ (∀ a ∈ r, 0 ≤ a) ∧
      (totalWeight f'.net ((World.fresh f'.net).after f'.net later) ≠ 0 → r.sum = 1 ∧
        ∀ i, i < f.card v → r[i]? = some (stateWeight f'.net ((World.fresh f'.net).after f'.net later) v i /
          totalWeight f'.net ((World.fresh f'.net).after f'.net later))) := by
  obtain ⟨m, w, h1, h2, h3⟩ := runFile_parents ptr hf ho
  obtain ⟨params', m1, g1, g2, g3, g4, _⟩ := mStep_spec hf h2.carries h3 hc
  rw [← hf'] at g4
  have hval : f'.Valid := by rw [hf']; exact relearn_valid hf (fun v c => countsIn_nonneg hc v c)
  obtain ⟨m2, k1, _, k2⟩ := Model.performAll_spec later g4 hl
  obtain ⟨m3, j1, _, j3, j4, _⟩ := Model.makeConsistent_spec k2
  obtain ⟨m4, i1, _, i3, i4⟩ := Model.questions_spec asks j3 ha hq
  obtain ⟨r, m5, q1, q2, q3, q4, _⟩ := getProbability_bayes (net_local hval) i3 (Model.Agrees_bare i4 j4) (v := v) (by rw [hf']; exact hv)
  refine ⟨m, params', m1, m4, r, m5, h1, g1, ?_, q1, ?_, q3, ?_⟩
  · rw [performAll_append, k1]
    unfold Model.performAll
    show (List.foldlM Model.perform m2 (Op.propagate :: asks)) = _
    rw [List.foldlM_cons]
    show (m2.makeConsistent).bind _ = _
    rw [j1]
    exact i1
  · rw [q2, hf']; rfl
  · intro ht
    obtain ⟨a1, a2⟩ := q4 ht
    refine ⟨a1, fun i hi => a2 i ?_⟩
    rw [hf']; exact hi

/-- Counts for the hidden Markov model; nothing was counted for variable 3 when variable 1 is in state 1. -/
def tally : List (Potential ℚ) :=
  [{ card := [2, 2], data := [3, 1, 0, 4] }, { card := [2], data := [5, 3] }, { card := [2, 2], data := [7 / 2, 1 / 2, 0, 0] }]

theorem tally_counts : CountTables hmm tally where
  length := rfl
  shape := by
    intro i v p hv hp
    have hi : i < 3 := by
      have := (List.getElem?_eq_some_iff.mp hp).1
      simpa [tally] using this
    have : i = 0 ∨ i = 1 ∨ i = 2 := by omega
    rcases this with rfl | rfl | rfl <;> (simp [hmm] at hv; subst hv; simp [tally] at hp; subst hp; unfold TableFor; decide +kernel)
  nonneg := by decide +kernel

/-- The hypotheses of C51 are met, after a history of use; and the new numbers, computed. -/
example : CountTables hmm tally ∧ (∀ op ∈ [Op.priors false, .observe 3 1], op.Valid hmm.net) ∧
    (NetFile.runFile 8 hmm [.priors false, .observe 3 1] >>= fun m => mStep tally m >>= fun r => ok (r.2.1.map (fun p => p.data), (r.2.2.var 2).prior)) =
      ok ([[3 / 4, 1 / 4, 0, 1], [5 / 8, 3 / 8], [7 / 8, 1 / 8, 0, 0]], some [5 / 8, 3 / 8]) := by
  refine ⟨tally_counts, ?_, by decide +kernel⟩
  intro op hop
  simp only [List.mem_cons, List.not_mem_nil, or_false] at hop
  rcases hop with rfl | rfl
  · trivial
  · show 3 ∈ hmm.vars; decide

/-- The column of variable 1 given state 1 of variable 2 has a positive count: the hypothesis for columns adding up to one. -/
example : (0 : ℚ) < ∑ j ∈ Finset.range (hmm.card 1), countsIn hmm tally 1 (j :: (hmm.givens 1).map (fun _ => 1)) := by decide +kernel

end Props

end Nip
