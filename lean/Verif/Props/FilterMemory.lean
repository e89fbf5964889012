import Verif.FilterMemoryLemmas
import Verif.Props.StepMemory
import Verif.Props.Impossible
import Verif.Props.AnyArithmetic

/-!
# C115: forward inference when memory runs out

`fails i` says that request number `i` for memory is refused.  The call comes after any history of calls in the same run, when the arrays for the results and the messages
have been allocated.  `linked` says whether there are links between time steps.
-/

namespace Nip.Props

open Nip Res Spec

variable {K : Type} [Field K] [LinearOrder K] [IsStrictOrderedRing K]

/-- the model after a run is the one after the calls that were served -/
theorem run_served {ptr : Nat} {f : NetFile K} (hf : f.Valid) (hall : Furnished f) {fails : Nat → Bool} {w : Loans} {ops : List (Op K)}
    (ho : ∀ op ∈ ops, op.Valid f.net) {m : Model K} {w' : Loans} (hrun : NetFile.runFileIn fails ptr f w ops = ok (m, w')) :
    ∃ hist m0, (∀ op ∈ hist, op ∈ ops) ∧ NetFile.build ptr f = ok (some m0) ∧ m0.performAll hist = ok m := by
  have hi : InferenceServed fails (bordersOf ptr f) w.tried ops := by
    by_contra hc
    rw [(C113_undefined ptr hf hall fails w ho).mpr hc] at hrun
    cases hrun
  obtain ⟨m0, h1, h2, h3, h4, _, h6⟩ := build_parts_in ptr hf hall
  obtain ⟨m1, g1, g2, _⟩ := (Model.performAllIn_spec fails ops w h2 h3 h4 ho).1 hi
  rw [h6, g2] at hrun
  simp only [ok.injEq, Prod.mk.injEq] at hrun
  obtain ⟨rfl, _⟩ := hrun
  exact ⟨_, m0, Model.servedCalls_sub _ _ _ _, h1, g1⟩

theorem valid_proper {f : NetFile K} {op : Op K} (h : op.Valid f.net) : Op.Proper (fun _ => True) f.card f.vars op := by
  cases op with
  | evidence v e => exact ⟨h.1, h.2.1, fun _ _ => trivial⟩
  | observe v i => exact h
  | query v => exact h
  | _ => trivial

/-- **C115**: if no request for a message or of inference is refused, the results are those for the series without the values whose requests are refused, and nothing more stays
allocated; otherwise the behaviour is undefined. -/
theorem C115_filtering (ptr : Nat) {f : NetFile K} (hf : f.Valid) (htm : f.Temporal) (hall : Furnished f) (fails : Nat → Bool) (w : Loans) {ops : List (Op K)}
    (ho : ∀ op ∈ ops, op.Valid f.net) {m : Model K} {w' : Loans} (hrun : NetFile.runFileIn fails ptr f w ops = ok (m, w')) (marked : Nat → Bool) {ts : TimeSeries}
    (hts : ts.WellFormed) (hob : ∀ v ∈ ts.observed, v ∈ f.vars) {vars : List Nat} (hvars : ∀ v ∈ vars, v ∈ f.vars) {linked : Bool} (hl : linked = true ↔ f.Links)
    {b : Nat} (hb : b = bordersOf ptr f) :
    ∃ m0 s, NetFile.parseModel ptr f = ok (some (m0, s)) ∧
      ((∀ t, t < ts.length → StepServed fails linked b w'.tried (valueCount marked ts.observed ts.data) t) →
        ∃ results ll m',
          forwardInference none s marked { ts with data := thinRows fails marked linked b w'.tried ts.observed ts.data } vars m = ok (results, ll, m') ∧
          forwardInferenceIn fails s marked ts vars m w' =
            ok ((results, m'), { tried := w'.tried + stepBegins linked b (valueCount marked ts.observed ts.data) ts.length, held := w'.held })) ∧
      (¬ (∀ t, t < ts.length → StepServed fails linked b w'.tried (valueCount marked ts.observed ts.data) t) →
        forwardInferenceIn fails s marked ts vars m w' = ub) := by
  obtain ⟨_, h2, h3⟩ := run_known hf hall ho hrun
  obtain ⟨hist, m0, a1, a2, a3⟩ := run_served hf hall ho hrun
  obtain ⟨mb, s, b1, b2, b3, b4, _⟩ := parse_any closed_all ptr hf.toFits htm (fun _ _ _ _ => trivial)
  rw [a2] at b2
  simp only [ok.injEq, Option.some.injEq] at b2
  subst b2
  obtain ⟨m1, c1, c2, c3⟩ := Model.performAll_any closed_all hist m0 b3 (fun op hop => valid_proper (ho op (a1 op hop)))
  rw [a3] at c1
  simp only [ok.injEq] at c1
  subst c1
  have hout : linked = decide (s.out ≠ []) := by
    obtain ⟨_, s', d1, _, _, _, _, d2⟩ := interface_spec ptr hf htm
    rw [b1] at d1
    simp only [ok.injEq, Option.some.injEq, Prod.mk.injEq] at d1
    obtain ⟨_, rfl⟩ := d1
    rw [Bool.eq_iff_iff, hl, decide_eq_true_iff, d2, links_olds]
    simp
  refine ⟨m0, s, b1, ?_⟩
  exact Model.forwardIn_any fails w' c3 h2 (b4.same c2) hf.states (h3.trans hb.symm) ⟨hts, hob⟩ marked hvars hout

/-- **C115**, the answers: they are those from the values that were kept, up to the time step in question. -/
theorem C115_answers (ptr : Nat) {f : NetFile K} (hf : f.Valid) (htm : f.Temporal) (hall : Furnished f) (fails : Nat → Bool) (w : Loans) {ops : List (Op K)}
    (ho : ∀ op ∈ ops, op.Valid f.net) {m : Model K} {w' : Loans} (hrun : NetFile.runFileIn fails ptr f w ops = ok (m, w')) (marked : Nat → Bool) {ts : TimeSeries}
    (hts : ts.WellFormed) (hnd : ts.observed.Nodup) (hob : ∀ v ∈ ts.observed, v ∈ f.vars) {vars : List Nat} (hvars : ∀ v ∈ vars, v ∈ f.vars) {linked : Bool}
    (hl : linked = true ↔ f.Links) {b : Nat} (hb : b = bordersOf ptr f)
    (hserved : ∀ t, t < ts.length → StepServed fails linked b w'.tried (valueCount marked ts.observed ts.data) t) :
    ∃ m0 s results m', NetFile.parseModel ptr f = ok (some (m0, s)) ∧
      forwardInferenceIn fails s marked ts vars m w' =
        ok ((results, m'), { tried := w'.tried + stepBegins linked b (valueCount marked ts.observed ts.data) ts.length, held := w'.held }) ∧
      results.length = ts.length ∧
      ∀ t i v : Nat, t < ts.length → vars[i]? = some v →
        (results[t]?.bind (fun (row : List (List K)) => row[i]?)) =
          some (f.answer (dataSees marked ts.observed (thinRows fails marked linked b w'.tried ts.observed ts.data)) (t + 1) t v) := by
  obtain ⟨m0, s, h1, h2, _⟩ := C115_filtering ptr hf htm hall fails w ho hrun marked hts hob hvars hl hb
  obtain ⟨results, ll, m', g1, g2⟩ := h2 hserved
  obtain ⟨hist, mb, a1, a2, a3⟩ := run_served hf hall ho hrun
  have hfil := C96_filtering ptr hf htm (hist := hist) (fun op hop => ho op (a1 op hop)) none marked
    (ts := Model.thinned fails marked linked b w'.tried ts) (Model.thinned_wf hts) hnd hob hvars
  obtain ⟨m1, s1, m2, results1, ll1, m3, k1, k2, k3, k4, k5⟩ := hfil
  rw [h1] at k1
  simp only [ok.injEq, Option.some.injEq, Prod.mk.injEq] at k1
  obtain ⟨rfl, rfl⟩ := k1
  obtain ⟨mb', s', d1, d2, _⟩ := interface_spec ptr hf htm
  rw [h1] at d1
  simp only [ok.injEq, Option.some.injEq, Prod.mk.injEq] at d1
  obtain ⟨rfl, _⟩ := d1
  rw [a2] at d2
  simp only [ok.injEq, Option.some.injEq] at d2
  subst d2
  rw [a3] at k2
  simp only [ok.injEq] at k2
  subst k2
  have hsame := g1.symm.trans k3
  simp only [ok.injEq, Prod.mk.injEq] at hsame
  obtain ⟨rfl, _⟩ := hsame
  exact ⟨_, s, results, m', h1, g2, k4, k5⟩

/-- **C115**, enough memory: if no request of the call is refused, the results are those for the series itself. -/
theorem C115_enough (ptr : Nat) {f : NetFile K} (hf : f.Valid) (htm : f.Temporal) (hall : Furnished f) (fails : Nat → Bool) (w : Loans) {ops : List (Op K)}
    (ho : ∀ op ∈ ops, op.Valid f.net) {m : Model K} {w' : Loans} (hrun : NetFile.runFileIn fails ptr f w ops = ok (m, w')) (marked : Nat → Bool) {ts : TimeSeries}
    (hts : ts.WellFormed) (hob : ∀ v ∈ ts.observed, v ∈ f.vars) {vars : List Nat} (hvars : ∀ v ∈ vars, v ∈ f.vars) {linked : Bool} (hl : linked = true ↔ f.Links)
    {b : Nat} (hb : b = bordersOf ptr f)
    (hgr : Granted fails w'.tried (w'.tried + stepBegins linked b (valueCount marked ts.observed ts.data) ts.length)) :
    ∃ m0 s results ll m', NetFile.parseModel ptr f = ok (some (m0, s)) ∧ forwardInference none s marked ts vars m = ok (results, ll, m') ∧
      forwardInferenceIn fails s marked ts vars m w' =
        ok ((results, m'), { tried := w'.tried + stepBegins linked b (valueCount marked ts.observed ts.data) ts.length, held := w'.held }) := by
  obtain ⟨m0, s, h1, h2, _⟩ := C115_filtering ptr hf htm hall fails w ho hrun marked hts hob hvars hl hb
  have hmono : ∀ c : Nat → Nat, ∀ n t, t < n → stepBegins linked b c t + (arrivalRequests linked t + c t + laterRequests linked b) ≤ stepBegins linked b c n := by
    intro c n
    induction n with
    | zero => intro t ht; omega
    | succ n ih =>
      intro t ht
      rcases Nat.lt_succ_iff_lt_or_eq.mp ht with h | rfl
      · have := ih t h
        simp only [stepBegins]
        omega
      · simp only [stepBegins]
        exact le_refl _
  have hserved : ∀ t, t < ts.length → StepServed fails linked b w'.tried (valueCount marked ts.observed ts.data) t := by
    intro t ht
    have := hmono (valueCount marked ts.observed ts.data) _ _ ht
    exact ⟨fun i i1 i2 => hgr i (by omega) (by omega), fun i i1 i2 => hgr i (by omega) (by omega)⟩
  obtain ⟨results, ll, m', g1, g2⟩ := h2 hserved
  refine ⟨m0, s, results, ll, m', h1, ?_, g2⟩
  have hthin : thinRows fails marked linked b w'.tried ts.observed ts.data = ts.data := by
    unfold thinRows
    refine List.ext_getElem (by simp) fun t t1 t2 => ?_
    rw [List.getElem_mapIdx]
    have htl : t < ts.length := by rw [← hts.rows]; exact t2
    have hle := hmono (valueCount marked ts.observed ts.data) _ _ htl
    have hcount : valueCount marked ts.observed ts.data t = (presentValues marked ts.observed ts.data[t]).length := by
      unfold valueCount
      simp [t2]
    have hrl : ts.data[t].length = ts.observed.length := hts.row _ (List.getElem_mem _)
    refine List.ext_getElem (thinRow_length ..) fun i i1 i2 => ?_
    simp only [thinRow, List.getElem_mapIdx]
    have hio : i < ts.observed.length := by omega
    split
    · next hc =>
      simp only [Bool.and_eq_true] at hc
      obtain ⟨hm, hfail⟩ := hc
      have hg : ts.observed.getD i 0 = ts.observed[i] := by simp [hio]
      rw [hg] at hm
      have h3 : (presentValues marked (ts.observed.take i) (ts.data[t].take i)).length + 1 ≤ (presentValues marked ts.observed ts.data[t]).length := by
        have e1 := presentValues_succ marked hio i2 (by omega)
        rw [show (marked ts.observed[i] && decide (0 ≤ ts.data[t][i])) = true by simpa using hm] at e1
        have e2 := congrArg List.length e1
        simp only [if_true, List.length_append, List.length_singleton] at e2
        rw [← e2]
        unfold presentValues
        refine le_trans ?_ (le_refl _)
        refine List.Sublist.length_le ?_
        refine List.Sublist.filter _ ?_
        have e3 : ((ts.observed.take (i + 1)).zip (ts.data[t].take (i + 1))) = (ts.observed.zip ts.data[t]).take (i + 1) := by
          simp [List.zip, List.take_zipWith]
        rw [e3]
        exact List.take_sublist _ _
      rw [hgr _ (by omega) (by omega)] at hfail
      cases hfail
    · rfl
  rw [hthin] at g1
  exact g1

/-! ## examples -/

theorem hmm_links : true = true ↔ hmm.Links := ⟨fun _ => ⟨2, by decide, by decide⟩, fun _ => rfl⟩

/-- the requests of the two steps of `twoWatched`: 0 and 1 for the values, 2 to 5 of inference, 6 and 7 for the messages, 8 for the value, 9 to 12 of inference, 13 for the message -/
theorem twoWatched_served {fails : Nat → Bool} {k : Nat} (h : ∀ i, fails (k + i) = true → i = 0 ∨ i = 1 ∨ i = 8) :
    ∀ t, t < twoWatched.length → StepServed fails true 1 k (valueCount (fun _ => true) twoWatched.observed twoWatched.data) t := by
  have hc0 : valueCount (fun _ => true) twoWatched.observed twoWatched.data 0 = 2 := by decide
  have hc1 : valueCount (fun _ => true) twoWatched.observed twoWatched.data 1 = 1 := by decide
  have hg : ∀ a b, (∀ i, k + a ≤ k + i → i < b → i ≠ 0 ∧ i ≠ 1 ∧ i ≠ 8) → Granted fails (k + a) (k + b) := by
    intro a b hab i i1 i2
    obtain ⟨j, rfl⟩ := Nat.exists_eq_add_of_le (show k ≤ i by omega)
    cases hfj : fails (k + j) with
    | false => rfl
    | true =>
      have := h j hfj
      have := hab j (by omega) (by omega)
      omega
  intro t ht
  have ht2 : t < 2 := ht
  rcases (show t = 0 ∨ t = 1 by omega) with rfl | rfl
  · exact ⟨hg 0 0 (by omega), by simp only [hc0]; exact hg 2 7 (by omega)⟩
  · refine ⟨?_, ?_⟩
    · have := hg 7 8 (by omega)
      simpa [stepBegins, hc0, arrivalRequests, laterRequests, Nat.add_assoc] using this
    · have := hg 9 14 (by omega)
      simpa [stepBegins, hc0, hc1, arrivalRequests, laterRequests, Nat.add_assoc] using this

theorem hmm_start (fails : Nat → Bool) : ∃ m, NetFile.runFileIn fails 8 hmm ⟨0, 5⟩ [] = ok (m, ⟨0, 5⟩) := by
  have hi : InferenceServed fails (bordersOf 8 hmm) 0 ([] : List (Op ℚ)) := by
    intro before after he
    cases before <;> cases he
  obtain ⟨m, _, h⟩ := C113_history 8 hmm_valid hmm_furnished fails ⟨0, 5⟩ (ops := []) (by simp) hi
  exact ⟨m, h⟩

/-- The requests for the value of variable 1 in the first step and for the value of variable 3 in the second step are refused: the answers are those for the other value alone. -/
example : ∃ m m0 s results m', NetFile.runFileIn (fun i => decide (i = 0 ∨ i = 8)) 8 hmm ⟨0, 5⟩ [] = ok (m, ⟨0, 5⟩) ∧ NetFile.parseModel 8 hmm = ok (some (m0, s)) ∧
    forwardInferenceIn (fun i => decide (i = 0 ∨ i = 8)) s (fun _ => true) twoWatched [1] m ⟨0, 5⟩ = ok ((results, m'), ⟨14, 5⟩) ∧
    (results[1]?.bind (fun (row : List (List ℚ)) => row[0]?)) = some (hmm.answer (dataSees (fun _ => true) [1, 3] [[-1, 0], [-1, -1]]) 2 1 1) := by
  obtain ⟨m, hm⟩ := hmm_start (fun i => decide (i = 0 ∨ i = 8))
  obtain ⟨m0, s, results, m', h1, h2, _, h4⟩ := C115_answers 8 hmm_valid hmm_temporal hmm_furnished _ ⟨0, 5⟩ (by simp) hm (fun _ => true) twoWatched_wf (by decide) (by decide)
    (vars := [1]) (by decide) hmm_links hmm_borders.symm (twoWatched_served (by intro i hi; simp at hi; omega))
  exact ⟨m, m0, s, results, m', hm, h1, h2, h4 1 0 1 (by decide) rfl⟩

/-- the message to the second step is refused: undefined behaviour -/
example : ∃ m m0 s, NetFile.runFileIn (fun i => decide (i = 7)) 8 hmm ⟨0, 5⟩ [] = ok (m, ⟨0, 5⟩) ∧ NetFile.parseModel 8 hmm = ok (some (m0, s)) ∧
    forwardInferenceIn (fun i => decide (i = 7)) s (fun _ => true) twoWatched [1] m ⟨0, 5⟩ = ub := by
  obtain ⟨m, hm⟩ := hmm_start (fun i => decide (i = 7))
  obtain ⟨m0, s, h1, _, h3⟩ := C115_filtering 8 hmm_valid hmm_temporal hmm_furnished _ ⟨0, 5⟩ (by simp) hm (fun _ => true) twoWatched_wf (by decide)
    (vars := [1]) (by decide) hmm_links hmm_borders.symm
  refine ⟨m, m0, s, hm, h1, h3 fun h => ?_⟩
  have := (h 1 (by decide)).1 7 (by decide) (by decide)
  cases this

/-- enough memory for the call -/
example : ∃ m m0 s results ll m', NetFile.runFileIn (fun i => decide (14 ≤ i)) 8 hmm ⟨0, 5⟩ [] = ok (m, ⟨0, 5⟩) ∧ NetFile.parseModel 8 hmm = ok (some (m0, s)) ∧
    forwardInference none s (fun _ => true) twoWatched [1, 2] m = ok (results, ll, m') ∧
    forwardInferenceIn (fun i => decide (14 ≤ i)) s (fun _ => true) twoWatched [1, 2] m ⟨0, 5⟩ = ok ((results, m'), ⟨14, 5⟩) := by
  obtain ⟨m, hm⟩ := hmm_start (fun i => decide (14 ≤ i))
  obtain ⟨m0, s, results, ll, m', h1, h2, h3⟩ := C115_enough 8 hmm_valid hmm_temporal hmm_furnished _ ⟨0, 5⟩ (by simp) hm (fun _ => true) twoWatched_wf (by decide)
    (vars := [1, 2]) (by decide) hmm_links hmm_borders.symm (by
      intro i _ h2
      have : i < 14 := h2
      simp
      omega)
  exact ⟨m, m0, s, results, ll, m', hm, h1, h2, h3⟩

end Nip.Props
