import Verif.MlssLemmas
import Verif.Props.Smoothing

/-!
# C99: `mlss`

`Verif/Spec/Mlss.lean` says what a most likely sequence of states is; `Verif/Mlss.lean` is the code.
-/

namespace Nip.Props

open Nip Res Spec

variable {K : Type} [Field K] [LinearOrder K] [IsStrictOrderedRing K]

/-- The result is about the variables asked for, the others are hidden, and the length is that of the given series. -/
structure AboutAsked (vars asked : List Nat) (ts r : TimeSeries) : Prop where
  observed : r.observed = asked ∧ r.numObserved = asked.length
  hidden : r.hidden = vars.filter (· ∉ asked) ∧ r.numHidden = r.hidden.length ∧ r.numVars = vars.length
  length : r.length = ts.length ∧ r.data.length = ts.length
  rows : ∀ row ∈ r.data, row.length = asked.length

/-- The full claim: a series about the variables asked for whose data are a most likely sequence of states, without any error. -/
def C99_full : Prop :=
  ∀ (f : NetFile ℚ) (asked : List Nat) (ts : TimeSeries), f.Valid → f.Temporal → ts.WellFormed → ts.numVars = f.vars.length → ts.observed.Nodup →
    (∀ v ∈ ts.observed, v ∈ f.vars) → asked.Nodup → (∀ v ∈ asked, v ∈ f.vars) →
    ∃ r, mlss f.vars asked ts = ok (some r, 0) ∧ AboutAsked f.vars asked ts r ∧
      f.MostLikely (dataSees (fun _ => true) ts.observed ts.data) ts.length asked r.data

/-- What the function does, for any arguments: nothing undefined, always an error; if there are not too many variables, a series about them with all states zero, in which at most
as many variables are hidden as are left over. -/
theorem C99_result (vars asked : List Nat) (ts : TimeSeries) :
    mlss vars asked ts = if vars.length < asked.length then ok (none, 1)
      else ok (some ⟨vars.length, ((vars.length - asked.length : Nat) : Int), (vars.filter (· ∉ asked)).take (vars.length - asked.length), asked.length, asked, ts.length,
        List.replicate ts.length (List.replicate asked.length 0)⟩, 1) := by
  unfold mlss
  simp only
  by_cases h : vars.length < asked.length
  · rw [if_pos h, if_pos (by omega)]
  · rw [if_neg h, if_neg (by omega)]
    have hn : ((vars.length : Int) - asked.length) = ((vars.length - asked.length : Nat) : Int) := by omega
    obtain ⟨l, e⟩ := mlssHidden_eq vars asked (vars.length - asked.length)
    rw [hn, Int.toNat_natCast, e, ok_bind, filterMap_some_none]

theorem left_over {vars asked : List Nat} (hn : vars.Nodup) (ha : asked.Nodup) (hs : ∀ v ∈ asked, v ∈ vars) :
    asked.length ≤ vars.length ∧ (vars.filter (· ∉ asked)).length = vars.length - asked.length := by
  have h1 : (vars.filter (· ∈ asked)).Perm asked := by
    refine (List.perm_ext_iff_of_nodup (hn.filter _) ha).2 fun v => ?_
    simp only [List.mem_filter, decide_eq_true_eq]
    exact ⟨fun h => h.2, fun h => ⟨hs v h, h⟩⟩
  have h2 := List.length_eq_length_filter_add (l := vars) (fun v => decide (v ∈ asked))
  have h3 : vars.filter (fun v => !decide (v ∈ asked)) = vars.filter (· ∉ asked) := by
    refine List.filter_congr fun v _ => ?_
    simp
  rw [h1.length_eq, h3] at h2
  omega

/-- For different variables of the model the result has the right shape.  Missing: the states, and no error. -/
theorem C99_shape_partial (vars asked : List Nat) (ts : TimeSeries) (hn : vars.Nodup) (ha : asked.Nodup) (hs : ∀ v ∈ asked, v ∈ vars) :
    ∃ r, mlss vars asked ts = ok (some r, 1) ∧ AboutAsked vars asked ts r ∧ r.WellFormed ∧ ∀ row ∈ r.data, ∀ s ∈ row, s = 0 := by
  obtain ⟨h1, h2⟩ := left_over hn ha hs
  rw [C99_result, if_neg (by omega), ← h2, List.take_length]
  refine ⟨_, rfl, ⟨⟨rfl, rfl⟩, ⟨rfl, rfl, rfl⟩, ⟨rfl, by simp⟩, ?_⟩, ⟨rfl, by simp only; omega, by simp, ?_⟩, ?_⟩
  all_goals
    intro row hrow
    obtain ⟨_, rfl⟩ := List.mem_replicate.1 hrow
  · simp
  · simp
  · intro s hs
    exact (List.mem_replicate.1 hs).2

/-- The result is wrong whenever the data can happen and show a variable asked for in a state that is not the first one, in any network. -/
theorem C99_states_refuted (f : NetFile K) (hf : f.Valid) (marked : Nat → Bool) (ts : TimeSeries) (asked : List Nat) (hs : ∀ v ∈ asked, v ∈ f.vars) (t v : Nat) (ht : t < ts.length)
    (hv : v ∈ asked) (hseen : 0 < dataSees marked ts.observed ts.data t v)
    (hpos : f.unrolledTotal (dataSees marked ts.observed ts.data) ts.length (fun _ => True) ≠ 0) (r : TimeSeries) (n : Nat) (hr : mlss f.vars asked ts = ok (some r, n)) :
    ¬ f.MostLikely (dataSees marked ts.observed ts.data) ts.length asked r.data := by
  intro hm
  obtain ⟨data, hd⟩ := sequence_exists hf _ _ asked hs hpos
  obtain ⟨i, hi⟩ := List.getElem?_of_mem hv
  have hz : f.sequenceWeight (dataSees marked ts.observed ts.data) ts.length asked r.data = 0 := by
    refine sequenceWeight_clash ht (hs v hv) hi hseen.le ?_
    rw [C99_result] at hr
    split at hr
    · cases hr
    · cases hr
      have hl : i < asked.length := by
        by_contra hc
        rw [List.getElem?_eq_none (by omega)] at hi
        cases hi
      simp only
      have : ((List.replicate ts.length (List.replicate asked.length (0 : Int))).getD t []).getD i (-1) = 0 := by simp [ht, hl]
      rw [this]
      exact hseen.ne'
  exact absurd (hm data) (not_le.2 (by rw [hz]; exact hd))

/-- Asked twice for the same variable, variables are lost that are not asked for. -/
theorem C99_twice_refuted : ∃ r n, mlss [1, 2, 3] [1, 1] ⟨3, 3, [1, 2, 3], 0, [], 1, [[]]⟩ = ok (some r, n) ∧ r.hidden = [2] := ⟨_, _, C99_result _ _ _, rfl⟩

/-- So the claim is false: for the hidden Markov model and the series of observations, asked about the variable that is observed. -/
theorem C99_refuted : ¬ C99_full := by
  intro h
  obtain ⟨r, hr, _, hm⟩ := h hmm [3] sightings hmm_valid hmm_temporal sightings_wellFormed rfl (by decide) (by decide) (by decide) (by decide)
  exact C99_states_refuted hmm hmm_valid (fun _ => true) sightings [3] (by decide) 2 3 (by decide) (by decide) (by decide) sightings_possible r 0 hr hm

/-- The hypotheses can be met. -/
example : ∃ r, mlss hmm.vars [3, 1] sightings = ok (some r, 1) ∧ AboutAsked hmm.vars [3, 1] sightings r ∧ r.WellFormed ∧ r.data = [[0, 0], [0, 0], [0, 0]] ∧
    ¬ hmm.MostLikely (dataSees (fun _ => true) sightings.observed sightings.data) 3 [3, 1] r.data := by
  obtain ⟨r, h1, h2, h3, _⟩ := C99_shape_partial hmm.vars [3, 1] sightings (by decide) (by decide) (by decide)
  refine ⟨r, h1, h2, h3, ?_, C99_states_refuted hmm hmm_valid (fun _ => true) sightings [3, 1] (by decide) 2 3 (by decide) (by decide) (by decide) sightings_possible r 1 h1⟩
  rw [C99_result] at h1
  cases h1
  rfl

end Nip.Props
