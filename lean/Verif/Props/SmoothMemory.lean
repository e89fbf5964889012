import Verif.SmoothMemoryLemmas
import Verif.Props.LikelihoodMemory

/-!
# C117: forward-backward inference when memory runs out

`fails i` says that request number `i` for memory is refused.  The call comes after any history of calls in the same run, when the arrays for the results and the messages
have been allocated; the likelihood is not asked for.  `linked` says whether there are links between time steps.
-/

namespace Nip.Props

open Nip Res Spec

variable {K : Type} [Field K] [LinearOrder K] [IsStrictOrderedRing K]

/-- **C117**: if no request for a message or of inference is refused, the call returns what it would return with unlimited memory if each phase were given the series without the values whose requests
are refused in that phase, and nothing more stays allocated; otherwise the behaviour is undefined. -/
theorem C117_smoothing (ptr : Nat) {f : NetFile K} (hf : f.Valid) (htm : f.Temporal) (hall : Furnished f) (fails : Nat → Bool) (w : Loans) {ops : List (Op K)}
    (ho : ∀ op ∈ ops, op.Valid f.net) {m : Model K} {w' : Loans} (hrun : NetFile.runFileIn fails ptr f w ops = ok (m, w')) (marked : Nat → Bool) {ts : TimeSeries}
    (hts : ts.WellFormed) (hob : ∀ v ∈ ts.observed, v ∈ f.vars) {vars : List Nat} (hvars : ∀ v ∈ vars, v ∈ f.vars) {linked : Bool} (hl : linked = true ↔ f.Links)
    {b : Nat} (hb : b = bordersOf ptr f) {k : Nat} (hk : k = w'.tried + stepBegins linked b (valueCount marked ts.observed ts.data) ts.length) :
    ∃ m0 s, NetFile.parseModel ptr f = ok (some (m0, s)) ∧
      ((∀ t, t < ts.length → StepServed fails linked b w'.tried (valueCount marked ts.observed ts.data) t ∧
          LateServed fails linked b ts.length k (valueCount marked ts.observed ts.data) t) →
        ∃ results m',
          twoPhases s marked { ts with data := thinRows fails marked linked b w'.tried ts.observed ts.data }
            { ts with data := lateRows fails marked linked b ts.length k ts.observed ts.data } vars m = ok (results, m') ∧
          forwardBackwardIn fails s marked ts vars m w' =
            ok ((results, m'), { tried := k + lastRequests linked b ts.length (valueCount marked ts.observed ts.data) ts.length, held := w'.held })) ∧
      (¬ (∀ t, t < ts.length → StepServed fails linked b w'.tried (valueCount marked ts.observed ts.data) t ∧
          LateServed fails linked b ts.length k (valueCount marked ts.observed ts.data) t) →
        forwardBackwardIn fails s marked ts vars m w' = ub) := by
  obtain ⟨_, h2, h3⟩ := run_known hf hall ho hrun
  obtain ⟨hist, m0, s, a1, a2, a3, a4, a5, a6⟩ := run_ready ptr hf htm hall ho hrun hl
  obtain ⟨l1, l2⟩ := Model.smoothIn_any fails w' a4 h2 a5 hf.states (h3.trans hb.symm) ⟨hts, hob⟩ marked hvars a6 hk
  exact ⟨m0, s, a2, l1, l2⟩

/-- **C117**, the same values lost in both phases: the answers are the conditional probabilities given the values kept. -/
theorem C117_same (ptr : Nat) {f : NetFile K} (hf : f.Valid) (htm : f.Temporal) (hall : Furnished f) (fails : Nat → Bool) (w : Loans) {ops : List (Op K)}
    (ho : ∀ op ∈ ops, op.Valid f.net) {m : Model K} {w' : Loans} (hrun : NetFile.runFileIn fails ptr f w ops = ok (m, w')) (marked : Nat → Bool) {ts : TimeSeries}
    (hts : ts.WellFormed) (hnd : ts.observed.Nodup) (hob : ∀ v ∈ ts.observed, v ∈ f.vars) {vars : List Nat} (hvars : ∀ v ∈ vars, v ∈ f.vars) {linked : Bool}
    (hl : linked = true ↔ f.Links) {b : Nat} (hb : b = bordersOf ptr f) {k : Nat} (hk : k = w'.tried + stepBegins linked b (valueCount marked ts.observed ts.data) ts.length)
    (hserved : ∀ t, t < ts.length → StepServed fails linked b w'.tried (valueCount marked ts.observed ts.data) t ∧
      LateServed fails linked b ts.length k (valueCount marked ts.observed ts.data) t)
    {rows : List (List Int)} (h1 : thinRows fails marked linked b w'.tried ts.observed ts.data = rows)
    (h2 : lateRows fails marked linked b ts.length k ts.observed ts.data = rows) :
    ∃ m0 s results m' w'', NetFile.parseModel ptr f = ok (some (m0, s)) ∧ forwardBackwardIn fails s marked ts vars m w' = ok ((results, m'), w'') ∧ results.length = ts.length ∧
      ∀ t i v : Nat, t < ts.length → vars[i]? = some v →
        (results[t]?.bind (fun (row : List (List K)) => row[i]?)) = some (f.answer (dataSees marked ts.observed rows) ts.length t v) := by
  obtain ⟨hist, m0, s, a1, a2, a3, _, _, _⟩ := run_ready ptr hf htm hall ho hrun hl
  obtain ⟨n0, s0, b1, b2, _⟩ := C117_smoothing ptr hf htm hall fails w ho hrun marked hts hob hvars hl hb hk
  rw [a2] at b1
  simp only [ok.injEq, Option.some.injEq, Prod.mk.injEq] at b1
  obtain ⟨rfl, rfl⟩ := b1
  obtain ⟨results, m', c1, c2⟩ := b2 hserved
  rw [h2] at c1
  rw [h1, twoPhases_same] at c1
  obtain ⟨m1, s1, m2, res, ll, m3, k1, k2, k3, k4, k5⟩ := C96_smoothing ptr hf htm (hist := hist) a1 none marked
    (ts := { ts with data := rows }) (by subst h1; exact Model.thinned_wf hts) hnd hob hvars
  rw [a2] at k1
  simp only [ok.injEq, Option.some.injEq, Prod.mk.injEq] at k1
  obtain ⟨rfl, rfl⟩ := k1
  rw [a3] at k2
  simp only [ok.injEq] at k2
  subst k2
  rw [k3, ok_bind] at c1
  simp only [ok.injEq, Prod.mk.injEq] at c1
  obtain ⟨rfl, _⟩ := c1
  exact ⟨m0, s, _, m', _, a2, c2, k4, k5⟩

/-- no value of a row is lost if no request for its values is refused -/
theorem thinRow_granted {fails : Nat → Bool} {marked : Nat → Bool} {k : Nat} {observed : List Nat} {row : List Int} (hl : row.length = observed.length)
    (h : Granted fails k (k + (presentValues marked observed row).length)) : thinRow fails marked k observed row = row := by
  refine List.ext_getElem (thinRow_length ..) fun i i1 i2 => ?_
  simp only [thinRow, List.getElem_mapIdx]
  have hio : i < observed.length := by omega
  split
  · next hc =>
    simp only [Bool.and_eq_true] at hc
    obtain ⟨hm, hfail⟩ := hc
    have hg : observed.getD i 0 = observed[i] := by simp [hio]
    rw [hg] at hm
    have h3 : (presentValues marked (observed.take i) (row.take i)).length + 1 ≤ (presentValues marked observed row).length := by
      have e1 := presentValues_succ marked hio i2 (by omega)
      rw [show (marked observed[i] && decide (0 ≤ row[i])) = true by simpa using hm] at e1
      have e2 := congrArg List.length e1
      simp only [if_true, List.length_append, List.length_singleton] at e2
      rw [← e2]
      unfold presentValues
      refine List.Sublist.length_le (List.Sublist.filter _ ?_)
      have e3 : ((observed.take (i + 1)).zip (row.take (i + 1))) = (observed.zip row).take (i + 1) := by
        simp [List.zip, List.take_zipWith]
      rw [e3]
      exact List.take_sublist _ _
    rw [h _ (by omega) (by omega)] at hfail
    cases hfail
  · rfl

/-- **C117**, enough memory: if no request of the call is refused, the results are those for the series itself. -/
theorem C117_enough (ptr : Nat) {f : NetFile K} (hf : f.Valid) (htm : f.Temporal) (hall : Furnished f) (fails : Nat → Bool) (w : Loans) {ops : List (Op K)}
    (ho : ∀ op ∈ ops, op.Valid f.net) {m : Model K} {w' : Loans} (hrun : NetFile.runFileIn fails ptr f w ops = ok (m, w')) (marked : Nat → Bool) {ts : TimeSeries}
    (hts : ts.WellFormed) (hob : ∀ v ∈ ts.observed, v ∈ f.vars) {vars : List Nat} (hvars : ∀ v ∈ vars, v ∈ f.vars) {linked : Bool} (hl : linked = true ↔ f.Links)
    {b : Nat} (hb : b = bordersOf ptr f) {k : Nat} (hk : k = w'.tried + stepBegins linked b (valueCount marked ts.observed ts.data) ts.length)
    (hgr : Granted fails w'.tried (k + lastRequests linked b ts.length (valueCount marked ts.observed ts.data) ts.length)) :
    ∃ m0 s results ll m', NetFile.parseModel ptr f = ok (some (m0, s)) ∧ forwardBackward none s marked ts vars m = ok (results, ll, m') ∧
      forwardBackwardIn fails s marked ts vars m w' =
        ok ((results, m'), { tried := k + lastRequests linked b ts.length (valueCount marked ts.observed ts.data) ts.length, held := w'.held }) := by
  obtain ⟨m0, s, h1, h2, _⟩ := C117_smoothing ptr hf htm hall fails w ho hrun marked hts hob hvars hl hb hk
  have hmono : ∀ c : Nat → Nat, ∀ n t, t < n → stepBegins linked b c t + (arrivalRequests linked t + c t + laterRequests linked b) ≤ stepBegins linked b c n := by
    intro c n
    induction n with
    | zero => intro t ht; omega
    | succ n ih =>
      intro t ht
      rcases Nat.lt_succ_iff_lt_or_eq.mp ht with h | rfl
      · have := ih t h
        simp only [stepBegins]
        omega
      · simp only [stepBegins]
        exact le_refl _
  have hlast : ∀ c : Nat → Nat, ∀ n d, d < n → lastRequests linked b ts.length c d + (arrivalRequests linked (ts.length - 1 - d) + c (ts.length - 1 - d) +
      backRequests linked b ts.length (ts.length - 1 - d)) ≤ lastRequests linked b ts.length c n := by
    intro c n
    induction n with
    | zero => intro t ht; omega
    | succ n ih =>
      intro t ht
      rcases Nat.lt_succ_iff_lt_or_eq.mp ht with h | rfl
      · have := ih t h
        simp only [lastRequests]
        omega
      · simp only [lastRequests]
        exact le_refl _
  have hlast' : ∀ t, t < ts.length → lastRequests linked b ts.length (valueCount marked ts.observed ts.data) (ts.length - 1 - t) +
      (arrivalRequests linked t + valueCount marked ts.observed ts.data t + backRequests linked b ts.length t) ≤
      lastRequests linked b ts.length (valueCount marked ts.observed ts.data) ts.length := by
    intro t ht
    have := hlast (valueCount marked ts.observed ts.data) ts.length (ts.length - 1 - t) (by omega)
    rwa [show ts.length - 1 - (ts.length - 1 - t) = t by omega] at this
  have hcount : ∀ t (ht : t < ts.data.length), valueCount marked ts.observed ts.data t = (presentValues marked ts.observed ts.data[t]).length := by
    intro t ht
    unfold valueCount
    simp [ht]
  obtain ⟨results, m', g1, g2⟩ := h2 fun t ht => by
    have e1 := hmono (valueCount marked ts.observed ts.data) _ _ ht
    have e2 := hlast' t ht
    exact ⟨⟨fun i i1 i2 => hgr i (by omega) (by omega), fun i i1 i2 => hgr i (by omega) (by omega)⟩,
      ⟨fun i i1 i2 => hgr i (by omega) (by omega), fun i i1 i2 => hgr i (by omega) (by omega)⟩⟩
  have t1 : thinRows fails marked linked b w'.tried ts.observed ts.data = ts.data := by
    unfold thinRows
    refine List.ext_getElem (by simp) fun t _ t2 => ?_
    rw [List.getElem_mapIdx]
    have hle := hmono (valueCount marked ts.observed ts.data) _ _ (show t < ts.length by rw [← hts.rows]; exact t2)
    have hc := hcount t t2
    exact thinRow_granted (hts.row _ (List.getElem_mem _)) fun i i1 i2 => hgr i (by omega) (by omega)
  have t2 : lateRows fails marked linked b ts.length k ts.observed ts.data = ts.data := by
    unfold lateRows
    refine List.ext_getElem (by simp) fun t _ t2 => ?_
    rw [List.getElem_mapIdx]
    have hle := hlast' t (by rw [← hts.rows]; exact t2)
    have hc := hcount t t2
    exact thinRow_granted (hts.row _ (List.getElem_mem _)) fun i i1 i2 => hgr i (by omega) (by omega)
  rw [t1, t2] at g1
  have g3 : (forwardBackward none s marked ts vars m >>= fun r => ok (r.1, r.2.2)) = ok (results, m') := (twoPhases_same s marked ts vars m).symm.trans g1
  cases hfb : forwardBackward none s marked ts vars m with
  | ub => rw [hfb] at g3; cases g3
  | ok r =>
    obtain ⟨r1, r2, r3⟩ := r
    rw [hfb, ok_bind] at g3
    simp only [ok.injEq, Prod.mk.injEq] at g3
    obtain ⟨rfl, rfl⟩ := g3
    exact ⟨m0, s, r1, r2, r3, h1, hfb, g2⟩

/-! ## examples -/

/-- the requests of `twoWatched` in the backward phase, after 14 requests: 14 for the message of the second step, 15 for its value, 16 to 19 of inference, 20 for the message to the first step,
21 and 22 for the values of the first step, 23 for the message from the second step, 24 to 27 of inference -/
theorem twoWatched_late {fails : Nat → Bool} (h : ∀ i, fails i = true → i < 14 ∨ i = 15 ∨ i = 21 ∨ i = 22) :
    ∀ t, t < twoWatched.length → LateServed fails true 1 twoWatched.length 14 (valueCount (fun _ => true) twoWatched.observed twoWatched.data) t := by
  have hc0 : valueCount (fun _ => true) twoWatched.observed twoWatched.data 0 = 2 := by decide
  have hc1 : valueCount (fun _ => true) twoWatched.observed twoWatched.data 1 = 1 := by decide
  have hlen : twoWatched.length = 2 := rfl
  have hg : ∀ a b, (∀ i, a ≤ i → i < b → 14 ≤ i ∧ i ≠ 15 ∧ i ≠ 21 ∧ i ≠ 22) → Granted fails a b := by
    intro a b hab i i1 i2
    cases hfj : fails i with
    | false => rfl
    | true =>
      have := h i hfj
      have := hab i i1 i2
      omega
  intro t ht
  have ht2 : t < 2 := ht
  rcases (show t = 0 ∨ t = 1 by omega) with rfl | rfl
  · refine ⟨?_, ?_⟩
    · have := hg 21 21 (by omega)
      simpa [hlen, lastRequests, hc1, backRequests, arrivalRequests] using this
    · have := hg 23 28 (by omega)
      simpa [hlen, lastRequests, hc0, hc1, backRequests, arrivalRequests] using this
  · refine ⟨?_, ?_⟩
    · have := hg 14 15 (by omega)
      simpa [hlen, lastRequests, arrivalRequests] using this
    · have := hg 16 21 (by omega)
      simpa [hlen, lastRequests, hc1, backRequests, arrivalRequests] using this

/-- The value of variable 1 in the first step is lost in both phases: the answers are those for the other values. -/
example : ∃ m m0 s results m' w, NetFile.runFileIn (fun i => decide (i = 0 ∨ i = 21)) 8 hmm ⟨0, 5⟩ [] = ok (m, ⟨0, 5⟩) ∧ NetFile.parseModel 8 hmm = ok (some (m0, s)) ∧
    forwardBackwardIn (fun i => decide (i = 0 ∨ i = 21)) s (fun _ => true) twoWatched [1] m ⟨0, 5⟩ = ok ((results, m'), w) ∧
    (results[0]?.bind (fun (row : List (List ℚ)) => row[0]?)) = some (hmm.answer (dataSees (fun _ => true) [1, 3] [[-1, 0], [-1, 1]]) 2 0 1) := by
  obtain ⟨m, hm⟩ := hmm_start (fun i => decide (i = 0 ∨ i = 21))
  have hf : ∀ t, t < twoWatched.length → StepServed (fun i => decide (i = 0 ∨ i = 21)) true 1 0 (valueCount (fun _ => true) twoWatched.observed twoWatched.data) t := by
    intro t ht
    have ht2 : t < 2 := ht
    rcases (show t = 0 ∨ t = 1 by omega) with rfl | rfl <;> constructor <;> intro i i1 i2 <;>
      simp [stepBegins, arrivalRequests, laterRequests, show valueCount (fun _ => true) twoWatched.observed twoWatched.data 0 = 2 by decide,
        show valueCount (fun _ => true) twoWatched.observed twoWatched.data 1 = 1 by decide] at i1 i2 ⊢ <;> omega
  obtain ⟨m0, s, results, m', w, h1, h2, _, h4⟩ := C117_same 8 hmm_valid hmm_temporal hmm_furnished (fun i => decide (i = 0 ∨ i = 21)) ⟨0, 5⟩ (by simp) hm (fun _ => true) twoWatched_wf
    (by decide) (by decide) (vars := [1]) (by decide) hmm_links hmm_borders.symm (k := 14) (by decide)
    (fun t ht => ⟨hf t ht, twoWatched_late (by intro i hi; simp at hi; omega) t ht⟩) (rows := [[-1, 0], [-1, 1]]) (by decide) (by decide)
  exact ⟨m, m0, s, results, m', w, hm, h1, h2, h4 0 0 1 (by decide) rfl⟩

/-- The value is lost in the forward phase only: the messages are those without the value, the backward phase enters it. -/
example : ∃ m m0 s results m', NetFile.runFileIn (fun i => decide (i = 0)) 8 hmm ⟨0, 5⟩ [] = ok (m, ⟨0, 5⟩) ∧ NetFile.parseModel 8 hmm = ok (some (m0, s)) ∧
    twoPhases s (fun _ => true) { twoWatched with data := [[-1, 0], [-1, 1]] } twoWatched [1] m = ok (results, m') ∧
    forwardBackwardIn (fun i => decide (i = 0)) s (fun _ => true) twoWatched [1] m ⟨0, 5⟩ = ok ((results, m'), ⟨28, 5⟩) := by
  obtain ⟨m, hm⟩ := hmm_start (fun i => decide (i = 0))
  obtain ⟨m0, s, h1, h2, _⟩ := C117_smoothing 8 hmm_valid hmm_temporal hmm_furnished _ ⟨0, 5⟩ (by simp) hm (fun _ => true) twoWatched_wf (by decide)
    (vars := [1]) (by decide) hmm_links hmm_borders.symm (k := 14) (by decide)
  obtain ⟨results, m', g1, g2⟩ := h2 fun t ht => ⟨twoWatched_served (by intro i hi; simp at hi; omega) t ht, twoWatched_late (by intro i hi; simp at hi; omega) t ht⟩
  exact ⟨m, m0, s, results, m', hm, h1, g1, g2⟩

/-- enough memory for the call -/
example : ∃ m m0 s results ll m', NetFile.runFileIn (fun i => decide (28 ≤ i)) 8 hmm ⟨0, 5⟩ [] = ok (m, ⟨0, 5⟩) ∧ NetFile.parseModel 8 hmm = ok (some (m0, s)) ∧
    forwardBackward none s (fun _ => true) twoWatched [1, 2] m = ok (results, ll, m') ∧
    forwardBackwardIn (fun i => decide (28 ≤ i)) s (fun _ => true) twoWatched [1, 2] m ⟨0, 5⟩ = ok ((results, m'), ⟨28, 5⟩) := by
  obtain ⟨m, hm⟩ := hmm_start (fun i => decide (28 ≤ i))
  obtain ⟨m0, s, results, ll, m', h1, h2, h3⟩ := C117_enough 8 hmm_valid hmm_temporal hmm_furnished _ ⟨0, 5⟩ (by simp) hm (fun _ => true) twoWatched_wf (by decide)
    (vars := [1, 2]) (by decide) hmm_links hmm_borders.symm (k := 14) (by decide) (by
      intro i _ h2
      have : i < 28 := h2
      simp
      omega)
  exact ⟨m, m0, s, results, ll, m', hm, h1, h2, h3⟩

/-- the message from the second step back to the first is refused: undefined behaviour -/
example : ∃ m m0 s, NetFile.runFileIn (fun i => decide (i = 23)) 8 hmm ⟨0, 5⟩ [] = ok (m, ⟨0, 5⟩) ∧ NetFile.parseModel 8 hmm = ok (some (m0, s)) ∧
    forwardBackwardIn (fun i => decide (i = 23)) s (fun _ => true) twoWatched [1] m ⟨0, 5⟩ = ub := by
  obtain ⟨m, hm⟩ := hmm_start (fun i => decide (i = 23))
  obtain ⟨m0, s, h1, _, h3⟩ := C117_smoothing 8 hmm_valid hmm_temporal hmm_furnished _ ⟨0, 5⟩ (by simp) hm (fun _ => true) twoWatched_wf (by decide)
    (vars := [1]) (by decide) hmm_links hmm_borders.symm (k := 14) (by decide)
  refine ⟨m, m0, s, hm, h1, h3 fun h => ?_⟩
  have := (h 0 (by decide)).2.2 23 (by decide) (by decide)
  cases this

end Nip.Props
