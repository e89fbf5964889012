import Mathlib.Algebra.Order.Field.Rat
import Mathlib.Data.List.GetD
import Verif.EmLoop

/-!
# C50: parameter learning stops and tells the true reason

The learning curve is what the caller sees of the likelihoods: one value per completed iteration.
-/

namespace Nip.Props

open Nip Res

variable {K S : Type} [Field K] [LinearOrder K]

/-- The likelihood after `i` iterations; before the first one it counts as `-DBL_MAX`. -/
def likelihoodAt (low : K) (curve : List (WithBot K)) (i : Nat) : WithBot K := ((low : WithBot K) :: curve).getD i ⊥

/-- From iteration `i` to the next the likelihood improved by more than the threshold (per time step). -/
def Improved (a : EmTask K S) (curve : List (WithBot K)) (i : Nat) : Prop :=
  likelihoodAt a.low curve i + (((a.steps : K) * a.threshold : K) : WithBot K) < likelihoodAt a.low curve (i + 1)

/-- From iteration `i` to the next the likelihood dropped by more than the threshold (per time step). -/
def Dropped (a : EmTask K S) (curve : List (WithBot K)) (i : Nat) : Prop :=
  likelihoodAt a.low curve (i + 1) + (((a.steps : K) * a.threshold : K) : WithBot K) < likelihoodAt a.low curve i

/-- The likelihood after iteration `i` is not that of a probability: positive, or zero probability. -/
def Invalid (a : EmTask K S) (curve : List (WithBot K)) (i : Nat) : Prop :=
  0 < likelihoodAt a.low curve i ∨ likelihoodAt a.low curve i = ⊥

/-- The largest number of iterations: the one asked for, but at least three. -/
def limit (a : EmTask K S) : Nat := max 3 a.maxIterations.toNat

/-- Nothing was wrong with the first `n` iterations. -/
def Fine (a : EmTask K S) (curve : List (WithBot K)) (n : Nat) : Prop := ∀ i, i < n → ¬ Dropped a curve i ∧ ¬ Invalid a curve (i + 1)

/-- A step of the algorithm failed with this code. -/
def StepFails (a : EmTask K S) (code : Nat) : Prop :=
  code ≠ 0 ∧ ((∃ s, (a.mStep s).1 = code) ∨ ∃ n s, (a.eStep n s).1 = code)

/-- What is reported agrees with what happened. -/
def TrueReport (a : EmTask K S) (r : EmResult K S) : Prop :=
  r.curve.length ≤ limit a ∧
    -- convergence: the last improvement was at most the threshold
    ((r.code = 0 ∧ r.criterion = some .delta ∧ Fine a r.curve r.curve.length ∧ 3 ≤ r.curve.length ∧
        ¬ Improved a r.curve (r.curve.length - 1)) ∨
      -- the iteration limit was reached while the likelihood was still improving
      (r.code = 0 ∧ r.criterion = some .iterations ∧ Fine a r.curve r.curve.length ∧ r.curve.length = limit a ∧
        Improved a r.curve (r.curve.length - 1)) ∨
      -- failure: the last likelihood dropped or was invalid
      (r.code = NIP_ERROR_BAD_LUCK ∧ r.criterion = none ∧ 1 ≤ r.curve.length ∧ Fine a r.curve (r.curve.length - 1) ∧
        (Dropped a r.curve (r.curve.length - 1) ∨ Invalid a r.curve r.curve.length)) ∨
      -- a step failed
      (StepFails a r.code ∧ r.criterion = none))

theorem eSteps_code (a : EmTask K S) (s : S) (r : Nat × S × WithBot K) (h : a.eSteps s = ok r) (hr : r.1 ≠ 0) :
    ∃ n s, (a.eStep n s).1 = r.1 := by
  have key : ∀ N (r : Nat × S × WithBot K), loop N (fun n (st : Nat × S × WithBot K) =>
      if st.1 ≠ 0 then ok st
      else
        let (e, s, probe) := a.eStep n st.2.1
        if e ≠ 0 then ok (e, s, st.2.2)
        else if a.asserts ∧ ¬ (⊥ < probe ∧ probe ≤ 0) then ub
        else ok (0, s, st.2.2 + probe)) (0, s, 0) = ok r → r.1 ≠ 0 → ∃ n s, (a.eStep n s).1 = r.1 := by
    intro N
    induction N with
    | zero => intro r h hr; cases h; exact absurd rfl hr
    | succ N ih =>
      intro r h hr
      rw [loop_succ] at h
      revert h
      generalize hl : loop N _ _ = l
      intro h
      cases l with
      | ub => cases h
      | ok st =>
        simp only [ok_bind'] at h
        by_cases h0 : st.1 ≠ 0
        · rw [if_pos h0] at h
          cases h
          exact ih _ hl h0
        · rw [if_neg h0] at h
          by_cases h1 : (a.eStep N st.2.1).1 ≠ 0
          · rw [if_pos h1] at h
            cases h
            exact ⟨N, st.2.1, rfl⟩
          · rw [if_neg h1] at h
            split at h
            · cases h
            · cases h; exact absurd rfl hr
  exact key a.series r h hr

omit [Field K] [LinearOrder K] in
theorem likelihoodAt_snoc (low : K) (curve : List (WithBot K)) (x : WithBot K) (i : Nat) (h : i ≤ curve.length) :
    likelihoodAt low (curve ++ [x]) i = likelihoodAt low curve i := by
  unfold likelihoodAt
  rw [← List.cons_append, List.getD_append _ _ _ _ (by simp; omega)]

omit [Field K] [LinearOrder K] in
theorem likelihoodAt_last (low : K) (curve : List (WithBot K)) (x : WithBot K) :
    likelihoodAt low (curve ++ [x]) (curve.length + 1) = x := by
  unfold likelihoodAt
  simp

theorem Fine.snoc {a : EmTask K S} {curve : List (WithBot K)} {n : Nat} (h : Fine a curve n) (hn : n ≤ curve.length) (x : WithBot K) :
    Fine a (curve ++ [x]) n := by
  intro i hi
  have := h i hi
  unfold Dropped Invalid at *
  rw [likelihoodAt_snoc _ _ _ _ (by omega), likelihoodAt_snoc _ _ _ _ (by omega)]
  exact this

theorem emLoop_spec (a : EmTask K S) (fuel i : Nat) (ll : WithBot K) (curve : List (WithBot K)) (s : S)
    (hi : curve.length = i) (hl : likelihoodAt a.low curve i = ll) (hfine : Fine a curve i) (hlim : i < limit a) :
    (∀ r, a.emLoop fuel i ll curve s = ok r → TrueReport a r) ∧
      (limit a ≤ fuel + i → (∀ s, a.eSteps s ≠ ub) → a.emLoop fuel i ll curve s ≠ ub) := by
  induction fuel generalizing i ll curve s with
  | zero => exact ⟨fun r h => by simp [EmTask.emLoop] at h, fun h => by omega⟩
  | succ fuel ih =>
    unfold EmTask.emLoop
    simp only
    by_cases hm : (a.mStep s).1 ≠ 0
    · rw [if_pos hm]
      refine ⟨?_, fun _ _ => by simp⟩
      rintro r ⟨⟩
      exact ⟨by simp, Or.inr (Or.inr (Or.inr ⟨⟨hm, Or.inl ⟨s, rfl⟩⟩, rfl⟩))⟩
    · rw [if_neg hm]
      cases he : a.eSteps (a.uniform (a.mStep s).2) with
      | ub => exact ⟨fun r h => by simp at h, fun _ h => absurd he (h _)⟩
      | ok st =>
        obtain ⟨e, s', x⟩ := st
        simp only [ok_bind]
        by_cases h0 : e ≠ 0
        · rw [if_pos h0]
          refine ⟨?_, fun _ _ => by simp⟩
          rintro r ⟨⟩
          refine ⟨?_, Or.inr (Or.inr (Or.inr ⟨⟨h0, Or.inr (eSteps_code a _ _ he h0)⟩, rfl⟩))⟩
          simp only
          split
          · simp
          · rw [hi]; omega
        · rw [if_neg h0]
          have hlast : likelihoodAt a.low (curve ++ [x]) (i + 1) = x := by rw [← hi]; exact likelihoodAt_last _ _ _
          have hprev : likelihoodAt a.low (curve ++ [x]) i = ll := by rw [likelihoodAt_snoc _ _ _ _ (by omega)]; exact hl
          have hlen : (curve ++ [x]).length = i + 1 := by simp [hi]
          have hfine' : Fine a (curve ++ [x]) i := hfine.snoc (by omega) x
          by_cases hbad : ll > x + (((a.steps : K) * a.threshold : K) : WithBot K) ∨ x > 0 ∨ x = ⊥
          · rw [if_pos hbad]
            refine ⟨?_, fun _ _ => by simp⟩
            rintro r ⟨⟩
            refine ⟨by rw [hlen]; omega, Or.inr (Or.inr (Or.inl ⟨rfl, rfl, by rw [hlen]; omega, ?_, ?_⟩))⟩
            · simp only [hlen]; exact hfine'
            · simp only [hlen, Nat.add_sub_cancel]
              unfold Dropped Invalid
              rw [hlast, hprev]
              exact hbad
          · rw [if_neg hbad]
            have hfine2 : Fine a (curve ++ [x]) (i + 1) := by
              intro k hk
              rcases Nat.lt_or_ge k i with h | h
              · exact hfine' k h
              · have : k = i := by omega
                subst this
                unfold Dropped Invalid
                rw [hlast, hprev]
                exact ⟨fun h => hbad (Or.inl h), fun h => hbad (Or.inr h)⟩
            by_cases hmin : i + 1 ≥ minEmIterations
            · rw [if_pos hmin]
              have hmin' : 3 ≤ i + 1 := hmin
              by_cases himp : x > ll + (((a.steps : K) * a.threshold : K) : WithBot K)
              · rw [if_pos himp]
                by_cases hmax : ((i + 1 : Nat) : Int) ≥ a.maxIterations
                · rw [if_pos hmax]
                  refine ⟨?_, fun _ _ => by simp⟩
                  rintro r ⟨⟩
                  have hlim' : limit a = i + 1 := by unfold limit at *; omega
                  refine ⟨by rw [hlen]; omega, Or.inr (Or.inl ⟨rfl, rfl, ?_, ?_, ?_⟩)⟩
                  · simp only [hlen]; exact hfine2
                  · simp only [hlen]; omega
                  · simp only [hlen, Nat.add_sub_cancel]
                    unfold Improved
                    rw [hlast, hprev]
                    exact himp
                · rw [if_neg hmax]
                  have := ih (i + 1) x (curve ++ [x]) s' hlen hlast hfine2 (by unfold limit; omega)
                  exact ⟨this.1, fun h => this.2 (by omega)⟩
              · rw [if_neg himp]
                refine ⟨?_, fun _ _ => by simp⟩
                rintro r ⟨⟩
                refine ⟨by rw [hlen]; omega, Or.inl ⟨rfl, rfl, ?_, ?_, ?_⟩⟩
                · simp only [hlen]; exact hfine2
                · simp only [hlen]; exact hmin'
                · simp only [hlen, Nat.add_sub_cancel]
                  unfold Improved
                  rw [hlast, hprev]
                  exact himp
            · rw [if_neg hmin]
              have hmin' : ¬ 3 ≤ i + 1 := hmin
              have := ih (i + 1) x (curve ++ [x]) s' hlen hlast hfine2 (by unfold limit; omega)
              exact ⟨this.1, fun h => this.2 (by omega)⟩

theorem loop_ne_ub {σ : Type} {n : Nat} {f : Nat → σ → Res σ} {s : σ} (h : ∀ i s, f i s ≠ ub) : loop n f s ≠ ub := by
  induction n with
  | zero => simp
  | succ n ih =>
    rw [loop_succ]
    cases hl : loop n f s with
    | ub => exact absurd hl ih
    | ok a => exact h n a

/-- Whatever the steps of the algorithm do, and however the data and the parameters are, what is reported at the end is true. -/
theorem C50_true_report (a : EmTask K S) (fuel : Nat) (s : S) (r : EmResult K S) (h : a.em fuel s = ok r) : TrueReport a r :=
  (emLoop_spec a fuel 0 (a.low : WithBot K) [] s rfl rfl (fun i hi => by omega) (by unfold limit; omega)).1 r h

/-- Training ends within the largest number of iterations, whatever the likelihoods are, if no assertion about them fails (or the program was
compiled without). -/
theorem C50_stops (a : EmTask K S) (fuel : Nat) (hf : limit a ≤ fuel) (s : S)
    (ha : a.asserts = false ∨ ∀ n s, (a.eStep n s).1 = 0 → ⊥ < (a.eStep n s).2.2 ∧ (a.eStep n s).2.2 ≤ 0) :
    ∃ r, a.em fuel s = ok r ∧ r.curve.length ≤ limit a := by
  have hsteps : ∀ s, a.eSteps s ≠ ub := by
    intro s
    refine loop_ne_ub (fun i st => ?_)
    split
    · simp
    · simp only
      split
      · simp
      · rename_i h1
        rcases ha with ha | ha
        · simp [ha]
        · rw [if_neg]
          · simp
          · rintro ⟨_, h⟩
            exact h (ha i st.2.1 (not_not.mp h1))
  have := (emLoop_spec a fuel 0 (a.low : WithBot K) [] s rfl rfl (fun i hi => by omega) (by unfold limit; omega)).2 (by omega) hsteps
  cases h : a.em fuel s with
  | ub => exact absurd h this
  | ok r => exact ⟨r, rfl, (C50_true_report a fuel s r h).1⟩

/-- Likelihoods `-10, -6, -5, -4.5, -4.4, …` by number of iterations. -/
def demoTask (maxIterations : Int) (threshold : ℚ) (last : ℚ) : EmTask ℚ Nat where
  mStep := fun s => (0, s)
  eStep := fun _ s => (0, s + 1, (([-10, -6, -5, -9 / 2, -22 / 5].getD s last : ℚ) : WithBot ℚ))
  uniform := id
  series := 1
  steps := 2
  maxIterations := maxIterations
  threshold := threshold
  low := -1000
  asserts := false

/-- The three ways to end: iteration limit, convergence, and failure because the sixth likelihood dropped. -/
example :
    ((demoTask 4 (1 / 10) (-22 / 5)).em 4 0 >>= fun r => ok (r.code, r.criterion, r.curve.length)) = ok (0, some .iterations, 4) ∧
    ((demoTask 100 (1 / 10) (-22 / 5)).em 100 0 >>= fun r => ok (r.code, r.criterion, r.curve.length)) = ok (0, some .delta, 5) ∧
    ((demoTask 100 (1 / 100) (-7)).em 100 0 >>= fun r => ok (r.code, r.criterion, r.curve.length)) = ok (NIP_ERROR_BAD_LUCK, none, 6) := by
  decide +kernel

/-- The hypothesis of `C50_stops` with assertions: likelihoods of probabilities. -/
example : ∀ n s, ((demoTask 4 (1 / 10) (-22 / 5)).eStep n s).1 = 0 →
    ⊥ < ((demoTask 4 (1 / 10) (-22 / 5)).eStep n s).2.2 ∧ ((demoTask 4 (1 / 10) (-22 / 5)).eStep n s).2.2 ≤ 0 := by
  intro n s _
  refine ⟨WithBot.bot_lt_coe _, ?_⟩
  have : ([-10, -6, -5, -9 / 2, -22 / 5].getD s (-22 / 5) : ℚ) ≤ 0 := by
    rcases Nat.lt_or_ge s 5 with h | h
    · have : s = 0 ∨ s = 1 ∨ s = 2 ∨ s = 3 ∨ s = 4 := by omega
      rcases this with rfl | rfl | rfl | rfl | rfl <;> decide +kernel
    · rw [List.getD_eq_default _ _ (by simpa using h)]; decide +kernel
  exact WithBot.coe_le_coe.mpr this

end Nip.Props
