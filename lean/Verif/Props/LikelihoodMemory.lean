import Verif.LikelihoodMemoryLemmas
import Verif.Props.FilterMemory
import Verif.Props.Smoothing

/-!
# C116: forward inference with the likelihood when memory runs out

`fails i` says that request number `i` for memory is refused.  The call comes after any history of calls in the same run, when the arrays for the results and the messages
have been allocated.  `linked` says whether there are links between time steps.
-/

namespace Nip.Props

open Nip Res Spec

variable {K : Type} [Field K] [LinearOrder K] [IsStrictOrderedRing K]

/-- what is known of the model and the interface after a run -/
theorem run_ready (ptr : Nat) {f : NetFile K} (hf : f.Valid) (htm : f.Temporal) (hall : Furnished f) {fails : Nat → Bool} {w : Loans} {ops : List (Op K)}
    (ho : ∀ op ∈ ops, op.Valid f.net) {m : Model K} {w' : Loans} (hrun : NetFile.runFileIn fails ptr f w ops = ok (m, w')) {linked : Bool} (hl : linked = true ↔ f.Links) :
    ∃ hist m0 s, (∀ op ∈ hist, op.Valid f.net) ∧ NetFile.parseModel ptr f = ok (some (m0, s)) ∧ m0.performAll hist = ok m ∧ Model.Fits' f.card f.vars m ∧
      Model.Link f.card f.vars m s ∧ linked = decide (s.out ≠ []) := by
  obtain ⟨hist, m0, a1, a2, a3⟩ := run_served hf hall ho hrun
  obtain ⟨mb, s, b1, b2, b3, b4, _⟩ := parse_any closed_all ptr hf.toFits htm (fun _ _ _ _ => trivial)
  rw [a2] at b2
  simp only [ok.injEq, Option.some.injEq] at b2
  subst b2
  obtain ⟨m1, c1, c2, c3⟩ := Model.performAll_any closed_all hist m0 b3 (fun op hop => valid_proper (ho op (a1 op hop)))
  rw [a3] at c1
  simp only [ok.injEq] at c1
  subst c1
  refine ⟨hist, m0, s, fun op hop => ho op (a1 op hop), b1, a3, c3, b4.same c2, ?_⟩
  obtain ⟨_, s', d1, _, _, _, _, d2⟩ := interface_spec ptr hf htm
  rw [b1] at d1
  simp only [ok.injEq, Option.some.injEq, Prod.mk.injEq] at d1
  obtain ⟨_, rfl⟩ := d1
  rw [Bool.eq_iff_iff, hl, decide_eq_true_iff, d2, links_olds]
  simp

/-- **C116**: with unlimited memory the call is defined for the series without the values whose requests are refused; if no request for a message or of inference is refused, results, likelihood and
model are the ones of that call and nothing more stays allocated; otherwise the behaviour is undefined.  The answers are those from the values that were kept. -/
theorem C116_filtering (ptr : Nat) {f : NetFile K} (hf : f.Valid) (htm : f.Temporal) (hall : Furnished f) (fails : Nat → Bool) (w : Loans) {ops : List (Op K)}
    (ho : ∀ op ∈ ops, op.Valid f.net) {m : Model K} {w' : Loans} (hrun : NetFile.runFileIn fails ptr f w ops = ok (m, w')) (g : Logs K) (marked : Nat → Bool) {ts : TimeSeries}
    (hts : ts.WellFormed) (hnd : ts.observed.Nodup) (hob : ∀ v ∈ ts.observed, v ∈ f.vars) {vars : List Nat} (hvars : ∀ v ∈ vars, v ∈ f.vars) {linked : Bool}
    (hl : linked = true ↔ f.Links) {b : Nat} (hb : b = bordersOf ptr f) :
    ∃ m0 s results ll m', NetFile.parseModel ptr f = ok (some (m0, s)) ∧
      forwardInference (some g) s marked { ts with data := keptRows fails marked linked b w'.tried ts.observed ts.data } vars m = ok (results, ll, m') ∧
      ((∀ t, t < ts.length → RoundServed fails linked b w'.tried (valueCount marked ts.observed ts.data) t) →
        forwardLikelihoodIn fails g s marked ts vars m w' =
          ok ((results, ll, m'), { tried := w'.tried + roundBegins linked b (valueCount marked ts.observed ts.data) ts.length, held := w'.held })) ∧
      (¬ (∀ t, t < ts.length → RoundServed fails linked b w'.tried (valueCount marked ts.observed ts.data) t) →
        forwardLikelihoodIn fails g s marked ts vars m w' = ub) ∧
      results.length = ts.length ∧
      ∀ t i v : Nat, t < ts.length → vars[i]? = some v →
        (results[t]?.bind (fun (row : List (List K)) => row[i]?)) =
          some (f.answer (dataSees marked ts.observed (keptRows fails marked linked b w'.tried ts.observed ts.data)) (t + 1) t v) := by
  obtain ⟨_, h2, h3⟩ := run_known hf hall ho hrun
  obtain ⟨hist, m0, s, a1, a2, a3, a4, a5, a6⟩ := run_ready ptr hf htm hall ho hrun hl
  obtain ⟨m1, s1, m2, results, ll, m', k1, k2, k3, k4, k5⟩ := C96_filtering ptr hf htm (hist := hist) a1 (some g) marked
    (ts := Model.keptSeries fails marked linked b w'.tried ts) (Model.keptSeries_wf hts) hnd hob hvars
  rw [a2] at k1
  simp only [ok.injEq, Option.some.injEq, Prod.mk.injEq] at k1
  obtain ⟨rfl, rfl⟩ := k1
  rw [a3] at k2
  simp only [ok.injEq] at k2
  subst k2
  obtain ⟨l1, l2⟩ := Model.likelihoodIn_any fails g w' a4 h2 a5 hf.states (h3.trans hb.symm) ⟨hts, hob⟩ marked hvars a6 k3
  exact ⟨m0, s, results, ll, m', a2, k3, l1, l2, k4, k5⟩

/-- **C116**, the likelihood reported: the one of the values that were kept (if there are links, or these values are possible before the last step: see C57). -/
theorem C116_likelihood (ptr : Nat) {f : NetFile K} (hf : f.Valid) (htm : f.Temporal) (hall : Furnished f) (fails : Nat → Bool) (w : Loans) {ops : List (Op K)}
    (ho : ∀ op ∈ ops, op.Valid f.net) {m : Model K} {w' : Loans} (hrun : NetFile.runFileIn fails ptr f w ops = ok (m, w')) {g : Logs K} (hg : g.Law) (marked : Nat → Bool) {ts : TimeSeries}
    (hts : ts.WellFormed) (hnd : ts.observed.Nodup) (hob : ∀ v ∈ ts.observed, v ∈ f.vars) {vars : List Nat} (hvars : ∀ v ∈ vars, v ∈ f.vars) {linked : Bool}
    (hl : linked = true ↔ f.Links) {b : Nat} (hb : b = bordersOf ptr f)
    (hserved : ∀ t, t < ts.length → RoundServed fails linked b w'.tried (valueCount marked ts.observed ts.data) t)
    {seen : Nat → Nat → Int} (hseen : seen = dataSees marked ts.observed (keptRows fails marked linked b w'.tried ts.observed ts.data))
    (hne : f.Links ∨ f.unrolledTotal seen (ts.length - 1) (fun _ => True) ≠ 0) :
    ∃ m0 s results ll m' w'', NetFile.parseModel ptr f = ok (some (m0, s)) ∧ forwardLikelihoodIn fails g s marked ts vars m w' = ok ((results, ll, m'), w'') ∧
      (f.unrolledTotal seen ts.length (fun _ => True) = 0 → ll = g.lowest) ∧
      (f.unrolledTotal seen ts.length (fun _ => True) ≠ 0 → ll = ∑ t ∈ Finset.range ts.length, g.log (f.evidenceProb seen t)) := by
  subst hseen
  obtain ⟨hist, m0, s, a1, a2, a3, _, _, _⟩ := run_ready ptr hf htm hall ho hrun hl
  obtain ⟨n0, s0, results, ll, m', b1, b2, b3, _⟩ := C116_filtering ptr hf htm hall fails w ho hrun g marked hts hnd hob hvars hl hb
  rw [a2] at b1
  simp only [ok.injEq, Option.some.injEq, Prod.mk.injEq] at b1
  obtain ⟨rfl, rfl⟩ := b1
  obtain ⟨m1, s1, m2, r1, n1, r2, n2, ll', k1, k2, k3, _, k5, k6⟩ := C57_likelihood_partial ptr hf htm (hist := hist) a1 hg marked
    (ts := Model.keptSeries fails marked linked b w'.tried ts) (Model.keptSeries_wf hts) hnd hob hvars hne
  rw [a2] at k1
  simp only [ok.injEq, Option.some.injEq, Prod.mk.injEq] at k1
  obtain ⟨rfl, rfl⟩ := k1
  rw [a3] at k2
  simp only [ok.injEq] at k2
  subst k2
  have hsame := b2.symm.trans k3
  simp only [ok.injEq, Prod.mk.injEq] at hsame
  obtain ⟨rfl, rfl, rfl⟩ := hsame
  exact ⟨m0, s, results, ll, m', _, a2, b3 hserved, k5, k6⟩

/-! ## examples -/

/-- the requests of the two steps of `twoWatched`: 0 to 3 of inference, 4 and 5 for the values, 6 to 9 of inference, 10 and 11 for the messages, 12 to 15 of inference, 16 for the value,
17 to 20 of inference, 21 for the message -/
theorem twoWatched_rounds {fails : Nat → Bool} (h : ∀ i, fails i = true → i = 4 ∨ i = 5 ∨ i = 16) :
    ∀ t, t < twoWatched.length → RoundServed fails true 1 0 (valueCount (fun _ => true) twoWatched.observed twoWatched.data) t := by
  have hc0 : valueCount (fun _ => true) twoWatched.observed twoWatched.data 0 = 2 := by decide
  have hc1 : valueCount (fun _ => true) twoWatched.observed twoWatched.data 1 = 1 := by decide
  have hg : ∀ a b, (∀ i, a ≤ i → i < b → i ≠ 4 ∧ i ≠ 5 ∧ i ≠ 16) → Granted fails a b := by
    intro a b hab i i1 i2
    cases hfj : fails i with
    | false => rfl
    | true =>
      have := h i hfj
      have := hab i i1 i2
      omega
  intro t ht
  have ht2 : t < 2 := ht
  rcases (show t = 0 ∨ t = 1 by omega) with rfl | rfl
  · refine ⟨?_, ?_⟩
    · have := hg 0 4 (by omega)
      simpa [roundBegins, earlyRequests, arrivalRequests] using this
    · have := hg 6 11 (by omega)
      simpa [roundBegins, hc0, earlyRequests, arrivalRequests, laterRequests] using this
  · refine ⟨?_, ?_⟩
    · have := hg 11 16 (by omega)
      simpa [roundBegins, hc0, earlyRequests, arrivalRequests, laterRequests] using this
    · have := hg 17 22 (by omega)
      simpa [roundBegins, hc0, hc1, earlyRequests, arrivalRequests, laterRequests] using this

/-- The request for the value of variable 1 in the first step is refused: results and likelihood are those for the other values. -/
example : ∃ m m0 s results ll m', NetFile.runFileIn (fun i => decide (i = 4)) 8 hmm ⟨0, 5⟩ [] = ok (m, ⟨0, 5⟩) ∧ NetFile.parseModel 8 hmm = ok (some (m0, s)) ∧
    forwardInference (some exponents) s (fun _ => true) { twoWatched with data := [[-1, 0], [-1, 1]] } [1] m = ok (results, ll, m') ∧
    forwardLikelihoodIn (fun i => decide (i = 4)) exponents s (fun _ => true) twoWatched [1] m ⟨0, 5⟩ = ok ((results, ll, m'), ⟨22, 5⟩) := by
  obtain ⟨m, hm⟩ := hmm_start (fun i => decide (i = 4))
  obtain ⟨m0, s, results, ll, m', h1, h2, h3, _⟩ := C116_filtering 8 hmm_valid hmm_temporal hmm_furnished _ ⟨0, 5⟩ (by simp) hm exponents (fun _ => true) twoWatched_wf (by decide) (by decide)
    (vars := [1]) (by decide) hmm_links hmm_borders.symm
  exact ⟨m, m0, s, results, ll, m', hm, h1, h2, h3 (twoWatched_rounds (by intro i hi; simp at hi; omega))⟩

/-- inference for the reference mass is refused its memory: undefined behaviour, although forward inference without the likelihood is defined -/
example : ∃ m m0 s, NetFile.runFileIn (fun i => decide (i = 0)) 8 hmm ⟨0, 5⟩ [] = ok (m, ⟨0, 5⟩) ∧ NetFile.parseModel 8 hmm = ok (some (m0, s)) ∧
    forwardLikelihoodIn (fun i => decide (i = 0)) exponents s (fun _ => true) twoWatched [1] m ⟨0, 5⟩ = ub ∧
    forwardInferenceIn (fun i => decide (i = 0)) s (fun _ => true) twoWatched [1] m ⟨0, 5⟩ ≠ ub := by
  obtain ⟨m, hm⟩ := hmm_start (fun i => decide (i = 0))
  obtain ⟨m0, s, _, _, _, h1, _, _, h4, _⟩ := C116_filtering 8 hmm_valid hmm_temporal hmm_furnished _ ⟨0, 5⟩ (by simp) hm exponents (fun _ => true) twoWatched_wf (by decide) (by decide)
    (vars := [1]) (by decide) hmm_links hmm_borders.symm
  obtain ⟨n0, s', g1, g2, _⟩ := C115_filtering 8 hmm_valid hmm_temporal hmm_furnished _ ⟨0, 5⟩ (by simp) hm (fun _ => true) twoWatched_wf (by decide)
    (vars := [1]) (by decide) hmm_links hmm_borders.symm
  rw [h1] at g1
  simp only [ok.injEq, Option.some.injEq, Prod.mk.injEq] at g1
  obtain ⟨rfl, rfl⟩ := g1
  refine ⟨m, m0, s, hm, h1, h4 fun h => ?_, ?_⟩
  · have := (h 0 (by decide)).1 0 (by decide) (by decide)
    cases this
  · obtain ⟨_, _, _, _, g3⟩ := g2 (twoWatched_served (by intro i hi; simp at hi; omega))
    rw [g3]
    intro hc
    cases hc

/-- the likelihood reported when all values are lost -/
example : ∃ m m0 s results ll m' w, NetFile.runFileIn (fun i => decide (i = 4 ∨ i = 5 ∨ i = 16)) 8 hmm ⟨0, 5⟩ [] = ok (m, ⟨0, 5⟩) ∧ NetFile.parseModel 8 hmm = ok (some (m0, s)) ∧
    forwardLikelihoodIn (fun i => decide (i = 4 ∨ i = 5 ∨ i = 16)) exponents s (fun _ => true) twoWatched [1] m ⟨0, 5⟩ = ok ((results, ll, m'), w) ∧
    (hmm.unrolledTotal (dataSees (fun _ => true) [1, 3] [[-1, -1], [-1, -1]]) 2 (fun _ => True) ≠ 0 →
      ll = ∑ t ∈ Finset.range 2, exponents.log (hmm.evidenceProb (dataSees (fun _ => true) [1, 3] [[-1, -1], [-1, -1]]) t)) := by
  obtain ⟨m, hm⟩ := hmm_start (fun i => decide (i = 4 ∨ i = 5 ∨ i = 16))
  obtain ⟨m0, s, results, ll, m', w, h1, h2, _, h4⟩ := C116_likelihood 8 hmm_valid hmm_temporal hmm_furnished _ ⟨0, 5⟩ (by simp) hm exponents_law (fun _ => true) twoWatched_wf (by decide) (by decide)
    (vars := [1]) (by decide) hmm_links hmm_borders.symm (twoWatched_rounds (by intro i hi; simpa using hi)) rfl (Or.inl (hmm_links.mp rfl))
  exact ⟨m, m0, s, results, ll, m', w, hm, h1, h2, h4⟩

end Nip.Props
