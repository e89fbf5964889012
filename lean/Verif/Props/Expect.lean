import Verif.Cast
import Verif.Props.Learn
import Verif.Props.Smoothing

/-!
# Property C59: the expectation step of learning

The expected counts are those of the unrolled network, `NetFile.expectedCount` in `Verif/Spec/Learn.lean`.
-/

namespace Nip

open Res Spec

set_option linter.unusedSectionVars false

variable {K : Type} [Field K] [LinearOrder K] [IsStrictOrderedRing K]

namespace Props

/-- The full claim of C59, about one file, a history of use of the model, a series and an array of counts. -/
def Expects (ptr : Nat) (f : NetFile K) (hist : List (Op K)) (g : Logs K) (marked : Nat → Bool) (ts : TimeSeries) (params : List (Potential K)) : Prop :=
  ∃ m0 s m code params' ll m', NetFile.parseModel ptr f = ok (some (m0, s)) ∧ m0.performAll hist = ok m ∧
    eStep g s marked ts params m = ok (code, params', ll, m') ∧
    (f.unrolledTotal (dataSees marked ts.observed ts.data) ts.length (fun _ => True) ≠ 0 →
      code = 0 ∧ ll = ∑ t ∈ Finset.range ts.length, g.log (f.evidenceProb (dataSees marked ts.observed ts.data) t) ∧ CountTables f params' ∧
      ∀ v ∈ f.vars, ∀ x, Legal f.card f.vars x → countsIn f params' v (f.cell v x) =
        countsIn f params v (f.cell v x) + f.expectedCount (dataSees marked ts.observed ts.data) ts.length v (f.cell v x)) ∧
    (f.unrolledTotal (dataSees marked ts.observed ts.data) ts.length (fun _ => True) = 0 → code = NIP_ERROR_BAD_LUCK ∧ params' = params)

/-- **C59**, for files whose temporal links make sense.  What is missing: as for C53 and C56, this condition cannot be dropped
(`C59_unlinked_refuted`). -/
theorem C59_expected_counts_partial (ptr : Nat) {f : NetFile K} (hf : f.Valid) (htm : f.Temporal) {hist : List (Op K)} (hh : ∀ op ∈ hist, op.Valid f.net)
    {g : Logs K} (hg : g.Law) (hg1 : ∀ a, 0 < a → a ≤ 1 → g.log a ≤ 0) (marked : Nat → Bool) {ts : TimeSeries} (hts : ts.WellFormed)
    (hnd : ts.observed.Nodup) (hob : ∀ v ∈ ts.observed, v ∈ f.vars) {params : List (Potential K)} (hc : CountTables f params) :
    Expects ptr f hist g marked ts params := by
  obtain ⟨m0, s, h1, h2, h3, h4, h5, h6⟩ := interface_spec ptr hf htm
  obtain ⟨m, g1, g2, g3⟩ := Model.performAll_spec hist h3 hh
  have hpar : ∀ v, (m.var v).parents = f.givens v := by
    obtain ⟨mb, b1, b2, b3, _⟩ := build_spec ptr hf
    intro v
    have : mb = m0 := by
      unfold NetFile.parseModel at h1
      rw [b1, ok_bind] at h1
      simp only at h1
      cases e : NetFile.interface f mb with
      | ub => rw [e] at h1; cases h1
      | ok q => rw [e, ok_bind] at h1; cases h1; rfl
    rw [g2.1.parents, ← this, (b3 v).1, givens_eq]
  obtain ⟨code, params', ll, m', e1, _, e2, e3⟩ := eStep_spec hf htm ⟨h5, h6⟩ ⟨hts, hnd, hob⟩ marked hg
    (fun t _ ht => logs_small hf hg1 _ t ht) g3.carries (h4.keep g2.1.skel) hpar hc
  refine ⟨m0, s, m, code, params', ll, m', h1, g1, e1, ?_, fun h => ⟨(e3 h).1, (e3 h).2.1⟩⟩
  intro h
  obtain ⟨k1, k2, k3, _, k4⟩ := e2 h
  exact ⟨k1, k2, k3, fun v hv x hx => k4 v _ hv (cell_inRange hf hv hx)⟩

/-- The hypotheses of C59 are met by the hidden Markov model with real numbers, natural logarithms and a history of use, and its data are possible. -/
example : Expects 8 (castFile ℝ hmm) [.priors false, .observe 3 1] naturalLogs (fun _ => true) sightings (tally.map (Potential.castTo ℝ)) ∧
    (castFile ℝ hmm).unrolledTotal (dataSees (fun _ => true) sightings.observed sightings.data) sightings.length (fun _ => True) ≠ 0 := by
  refine ⟨C59_expected_counts_partial 8 (cast_valid ℝ hmm_valid) (cast_temporal ℝ hmm_temporal) ?_ naturalLogs_law naturalLogs_sane _ sightings_wellFormed
    (by decide) (show ∀ v ∈ sightings.observed, v ∈ hmm.vars by decide) (cast_counts ℝ tally_counts), ?_⟩
  · intro op hop
    simp only [List.mem_cons, List.not_mem_nil, or_false] at hop
    rcases hop with rfl | rfl
    · trivial
    · show 3 ∈ hmm.vars; decide
  · rw [cast_total]
    exact Rat.cast_ne_zero.mpr sightings_possible

/-- Impossible data: the other case of C59. -/
example : Expects 8 (castFile ℝ timeless) [] naturalLogs (fun _ => true) impossible ([⟨[2], [1, 1]⟩, ⟨[2, 2], [1, 1, 1, 1]⟩] : List (Potential ℝ)) ∧
    (castFile ℝ timeless).unrolledTotal (dataSees (fun _ => true) impossible.observed impossible.data) impossible.length (fun _ => True) = 0 := by
  have hc : CountTables timeless [⟨[2], [1, 1]⟩, ⟨[2, 2], [1, 1, 1, 1]⟩] := by
    refine ⟨rfl, ?_, by decide +kernel⟩
    intro i v p hv hp
    have hi : i < 2 := by
      have := (List.getElem?_eq_some_iff.mp hp).1
      simpa using this
    have : i = 0 ∨ i = 1 := by omega
    rcases this with rfl | rfl <;> (simp [timeless] at hv; subst hv; simp at hp; subst hp; unfold TableFor; decide +kernel)
  have hc' := cast_counts ℝ hc
  rw [show ([⟨[2], [1, 1]⟩, ⟨[2, 2], [1, 1, 1, 1]⟩] : List (Potential ℚ)).map (Potential.castTo ℝ) =
    ([⟨[2], [1, 1]⟩, ⟨[2, 2], [1, 1, 1, 1]⟩] : List (Potential ℝ)) by simp [Potential.castTo]] at hc'
  refine ⟨C59_expected_counts_partial 8 (cast_valid ℝ timeless_valid) (cast_temporal ℝ ?_) (by simp) naturalLogs_law naturalLogs_sane _
    impossible_wellFormed (by decide) (show ∀ v ∈ impossible.observed, v ∈ timeless.vars by decide) hc', ?_⟩
  · exact ⟨fun v _ u hu => (Option.not_mem_none u hu).elim, fun v _ u hu => (Option.not_mem_none u hu).elim, fun v _ w _ u hu => (Option.not_mem_none u hu).elim⟩
  · rw [cast_total]
    exact Rat.cast_eq_zero.mpr timeless_impossible

/-- Logarithms that are all zero: they obey the law of logarithms and can be computed. -/
def noLogs : Logs ℚ := { log := fun _ => 0, lowest := -1 }

/-- The counts after an expectation step, computed. -/
def expected (f : NetFile ℚ) (ts : TimeSeries) (params : List (Potential ℚ)) : Res (List (List ℚ)) := do
  let r ← NetFile.parseModel 8 f
  match r with
  | none => ub
  | some (m, s) => do
    let (_, params, _, _) ← eStep noLogs s (fun _ => true) ts params m
    ok (params.map (fun p => p.data))

/-- Counts for `unlinked`, all zero. -/
def blank : List (Potential ℚ) := [⟨[2], [0, 0]⟩, ⟨[2], [0, 0]⟩]

theorem blank_counts : CountTables unlinked blank := by
  refine ⟨rfl, ?_, by decide +kernel⟩
  intro i v p hv hp
  have hi : i < 2 := by
    have := (List.getElem?_eq_some_iff.mp hp).1
    simpa [blank] using this
  have : i = 0 ∨ i = 1 := by omega
  rcases this with rfl | rfl <;> (simp [unlinked] at hv; subst hv; simp [blank] at hp; subst hp; unfold TableFor; decide +kernel)

/-- **C59** is false without the condition that every variable with a successor is a parent of something: a variable that is not one has no mark
`OLD_OUTGOING`, and `e_step` counts it in every slice instead of in the first one only. -/
theorem C59_unlinked_refuted : ¬ ∀ (ptr : Nat) (f : NetFile ℚ), f.Valid → (∀ v ∈ f.vars, ∀ u ∈ f.next v, u ∈ f.vars ∧ f.card u = f.card v) →
    (∀ v ∈ f.vars, ∀ w ∈ f.vars, ∀ u, f.next v = some u → f.next w = some u → v = w) →
    ∀ g : Logs ℚ, g.Law → (∀ a, 0 < a → a ≤ 1 → g.log a ≤ 0) →
    ∀ ts : TimeSeries, ts.WellFormed → ts.observed.Nodup → (∀ v ∈ ts.observed, v ∈ f.vars) → ∀ params, CountTables f params →
      Expects ptr f [] g (fun _ => true) ts params := by
  intro h
  have hn : ∀ v u : Nat, unlinked.next v = some u → v = 2 ∧ u = 1 := by
    intro v u hu
    simp only [unlinked] at hu
    split_ifs at hu with h2
    exact ⟨h2, by cases hu; rfl⟩
  obtain ⟨m0, s, m, code, params', ll, m', h1, h2, h3, h4, _⟩ := h 8 unlinked unlinked_valid (by
      intro v _ u hu
      rw [(hn v u hu).2]
      exact ⟨by decide, rfl⟩) (fun v _ w _ u h1 h2 => by rw [(hn v u h1).1, (hn w u h2).1]) noLogs (by simp [Logs.Law, noLogs])
      (fun _ _ _ => le_refl _) silence silence_wellFormed (by decide) (by decide) blank blank_counts
  cases h2
  have hc : expected unlinked silence blank = ok [[1 / 2, 3 / 2], [1, 1]] := by decide +kernel
  have hr : expected unlinked silence blank = ok (params'.map (fun p => p.data)) := by
    unfold expected
    rw [h1, ok_bind]
    simp only
    rw [h3, ok_bind]
  rw [hc] at hr
  have hr' : params'.map (fun p => p.data) = [[1 / 2, 3 / 2], [1, 1]] := (Res.ok.inj hr).symm
  have hs : ∀ t v, dataSees (fun _ => true) silence.observed silence.data t v = -1 := by
    intro t v
    unfold dataSees rowSees
    have : silence.data.getD t [] = [] := by
      rcases t with _ | _ | t <;> rfl
    rw [this]; rfl
  obtain ⟨_, _, k1, k2⟩ := h4 (by
    show unlinked.unrolledTotal _ 2 _ ≠ 0
    rw [unlinked_total _ hs]
    simp [sumSlices, sumOver, Finset.sum_range_succ]
    norm_num)
  have e := k2 2 (by decide) (fun _ => 0) (fun _ _ => Nat.zero_lt_two)
  have hcell : ∀ x : Nat → Nat, unlinked.cell 2 x = [x 2] := fun x => rfl
  have hl : countsIn unlinked params' 2 [0] = 1 := by
    obtain ⟨p, q, rfl⟩ : ∃ p q, params' = [p, q] := by
      match params', hr' with
      | [p, q], _ => exact ⟨p, q, rfl⟩
    have hd : q.data = [1, 1] := by simpa using (List.cons.inj (List.cons.inj hr').2).1
    have hq : q.card = [2] := (k1.shape 1 2 q rfl rfl).1
    show q.at' [0] = 1
    cases q
    simp only at hd hq
    subst hd hq
    decide +kernel
  have hz : countsIn unlinked blank 2 [0] = 0 := by decide +kernel
  rw [hcell, hl, hz] at e
  unfold NetFile.expectedCount at e
  rw [show (Finset.range silence.length).filter (fun t => t = 0 ∨ unlinked.next 2 = none) = {0} by decide, Finset.sum_singleton,
    show silence.length = 2 from rfl, unlinked_total _ hs, unlinked_total _ hs] at e
  simp only [hcell] at e
  simp [sumSlices, sumOver, Finset.sum_range_succ] at e
  norm_num at e

end Props

end Nip
