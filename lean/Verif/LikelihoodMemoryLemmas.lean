import Verif.LikelihoodMemory
import Verif.Spec.LikelihoodMemory
import Verif.FilterMemoryLemmas

/-!
# Lemmas about forward inference with the likelihood when memory runs out
-/

namespace Nip

open Res Spec

set_option linter.unusedSectionVars false

namespace Model

variable {K : Type} [Field K] [LinearOrder K] [IsStrictOrderedRing K] {card : Nat → Nat} {vars : List Nat}

theorem arrive_known (fails : Nat → Bool) (w : Loans) {s : Interface} {b : Nat} {st : Filter K} (h : Ready card vars s b st) (t : Nat) {linked : Bool} (hl : linked = decide (s.out ≠ [])) :
    ∃ m1, arriveForward s t st.model st.alpha = ok m1 ∧ Same st.model m1 ∧ Fits' card vars m1 ∧ Settled vars m1 ∧
      Demands fails w (arrivalRequests linked t) (if 0 < t then finishPassIn fails s true st.model st.alpha none w else ok (st.model, w)) m1 := by
  have hP : Closed (fun _ : K => True) := JTree.closed_all
  have hreq : (if s.out = [] then 0 else 1) = (if linked then 1 else 0) := by
    rw [hl]
    by_cases hne : s.out = [] <;> simp [hne]
  obtain ⟨m1, a1, a2, a3⟩ := arriveForward_any hP h.fit h.link t h.letter
  refine ⟨m1, a1, a2, a3, ?_, ?_⟩
  · unfold arriveForward at a1
    split at a1
    · unfold finishPass at a1
      split at a1
      · simp only [ok.injEq] at a1
        subst a1
        exact h.settled
      · split at a1
        · cases a1
        · obtain ⟨cl, _, a1⟩ := bind_ok a1
          obtain ⟨⟨_, mp⟩, _, a1⟩ := bind_ok a1
          obtain ⟨⟨_, p⟩, _, a1⟩ := bind_ok a1
          obtain ⟨cs, _, a1⟩ := bind_ok a1
          simp only [ok.injEq] at a1
          subst a1
          exact h.settled.tree _
    · simp only [ok.injEq] at a1
      subst a1
      exact h.settled
  · unfold arriveForward at a1
    unfold arrivalRequests
    by_cases h0 : 0 < t
    · rw [if_pos h0] at a1 ⊢
      simp only [h0, decide_true, Bool.and_true]
      rw [← hreq]
      exact finishPassIn_any fails w h.fit h.link h.letter.1 a1
    · rw [if_neg h0] at a1 ⊢
      simp only [ok.injEq] at a1
      subst a1
      simp only [h0, decide_false, Bool.and_false, Bool.false_eq_true, if_false]
      exact Demands.zero rfl

/-- inference as a run with a number of requests -/
theorem consistent_known (fails : Nat → Bool) {m : Model K} (h : Fits' card vars m) (hs : Settled vars m) {b : Nat}
    (hb : (m.tree.sepsets.filter (fun s => s.vars ≠ [])).length = b) :
    ∃ m', m.makeConsistent = ok m' ∧ Same m m' ∧ Fits' card vars m' ∧ Settled vars m' ∧ ∀ u, Demands fails u (4 * b) (m.makeConsistentIn fails u) m' := by
  obtain ⟨m', c1, c2, c3⟩ := makeConsistent_any JTree.closed_all h
  obtain ⟨L, hL⟩ := h.good
  refine ⟨m', c1, c2, c3, makeConsistent_settled hs c1, fun u => ?_⟩
  have hc := makeConsistentIn_typed fails u hL h.safe.typed c1
  rw [hb] at hc
  constructor
  · intro hg
    rcases hc with ⟨k, _⟩ | ⟨_, k⟩
    · exact k
    · exact absurd hg (not_both k)
  · intro hr
    rcases hc with ⟨_, k⟩ | ⟨k, _⟩
    · exact absurd k (not_both hr)
    · exact k

/-- a run with `n` requests goes on with another -/
theorem split_granted {fails : Nat → Bool} {a x y : Nat} : Granted fails a (a + (x + y)) ↔ Granted fails a (a + x) ∧ Granted fails (a + x) (a + x + y) := by
  constructor
  · intro h
    exact ⟨fun i h1 h2 => h i h1 (by omega), fun i h1 h2 => h i (by omega) (by omega)⟩
  · rintro ⟨h1, h2⟩ i i1 i2
    by_cases hi : i < a + x
    · exact h1 i i1 hi
    · exact h2 i (by omega) (by omega)

theorem refused_of {fails : Nat → Bool} {a b : Nat} (h : ¬ Granted fails a b) : Refused fails a b := (granted_or fails a b).resolve_left h

theorem forwardRoundIn_any (fails : Nat → Bool) (g : Logs K) (w : Loans) {s : Interface} {b : Nat} {st : Filter K} (h : Ready card vars s b st) {ts ts' : TimeSeries} (hts : Usable vars ts)
    (marked : Nat → Bool) {vs : List Nat} (hvs : ∀ v ∈ vs, v ∈ vars) {t : Nat} (ht : t < ts.length) {row : List Int} (hrow : ts.data[t]? = some row) (hob : ts'.observed = ts.observed)
    (hlen : ts'.length = ts.length) (hnv : ts'.numVars = ts.numVars) (hnh : ts'.numHidden = ts.numHidden) {linked : Bool} (hl : linked = decide (s.out ≠ []))
    {early n later : Nat} (hearly : early = earlyRequests linked b t) (hn : n = (presentValues marked ts.observed row).length) (hlater : later = laterRequests linked b)
    (hthin : ts'.data[t]? = some (thinRow fails marked (w.tried + early) ts.observed row)) {st' : Filter K} (hst : forwardStep (some g) s marked ts' vs t st = ok st') :
    Ready card vars s b st' ∧
      (Granted fails w.tried (w.tried + early) ∧ Granted fails (w.tried + early + n) (w.tried + early + n + later) →
        forwardRoundIn fails g s marked ts vs t (st, w) = ok (st', ⟨w.tried + (early + n + later), w.held⟩)) ∧
      (¬ (Granted fails w.tried (w.tried + early) ∧ Granted fails (w.tried + early + n) (w.tried + early + n + later)) → forwardRoundIn fails g s marked ts vs t (st, w) = ub) := by
  have hP : Closed (fun _ : K => True) := JTree.closed_all
  have hreq : (if s.out = [] then 0 else 1) = (if linked then 1 else 0) := by
    rw [hl]
    by_cases hne : s.out = [] <;> simp [hne]
  obtain ⟨m1, a1, a2, a3, hs1, hd1⟩ := arrive_known fails w h t hl
  generalize harr : arrivalRequests linked t = arr at hd1
  have he : early = arr + 4 * b := by rw [hearly]; unfold earlyRequests; rw [harr]
  obtain ⟨m2, c1, c2, c3, hs2, hd2⟩ := consistent_known fails a3 hs1 ((seps_same a2).trans h.seps)
  obtain ⟨k1, m3, p1, p2, p3⟩ := probMass_any c3
  have hs3 : Settled vars m3 := probMass_settled hs2 p1
  obtain ⟨m4, b1, b2, b3, b4, b5⟩ := insertStepIn_any fails ⟨w.tried + early, w.held⟩ p3 hs3 hts marked ht hrow hob hlen hnv hnh hthin
  rw [← hn] at b2
  have hsame4 := a2.trans (c2.trans (p2.trans b4))
  obtain ⟨m5, f1, f2, f3, hs5, hd5⟩ := consistent_known fails b5 b3 ((seps_same hsame4).trans h.seps)
  obtain ⟨k2, m6, o1, o2, o3⟩ := probMass_any f3
  have hs6 : Settled vars m6 := probMass_settled hs5 o1
  obtain ⟨row', m6', d1, d2, d3, _⟩ := posteriors_any hP normal_true o3 hvs
  have hpost := fun u => posteriorsIn_any fails u hs6 hvs d1
  obtain ⟨rfl, _⟩ := hpost w
  have hsame6 := hsame4.trans (f2.trans o2)
  have hlink6 := h.link.same hsame6
  obtain ⟨a', e1, e2⟩ := startPass_any hP d3 hlink6 true h.letter
  obtain ⟨m7, g1, g2, g3⟩ := reset_any hP d3
  obtain ⟨r1, r2⟩ := resetIn_step fails hs6
  obtain ⟨m8, i1, i2, i3⟩ := usePriors_any hP g3 true
  obtain ⟨q1, q2⟩ := usePriorsIn_step fails (r2 m7 g1) true
  have hsame : Same st.model m8 := hsame6.trans (g2.trans i2)
  have hdst := fun u => startPassIn_any fails u d3 hlink6 h.letter.1 e1
  rw [hreq] at hdst
  have hla : later = 4 * b + (if linked then 1 else 0) := hlater
  generalize hx : (if linked then 1 else 0) = x at hla hdst
  -- the round of unlimited memory
  have hmass : 0 ≤ k2 ∧ st' =
      { model := m8, alpha := a', results := st.results ++ [row'],
        ll := if k2 = 0 then g.lowest else if 0 < k1 ∧ 0 < k2 then st.ll + (g.log k2 - g.log k1) else st.ll } := by
    unfold forwardStep absorb at hst
    simp only [a1, ok_bind, c1, p1, b1, f1, o1] at hst
    by_cases hk : 0 ≤ k2
    · rw [if_pos hk] at hst
      simp only [ok_bind, d1, e1, g1, i1, ok.injEq] at hst
      exact ⟨hk, hst.symm⟩
    · rw [if_neg hk] at hst
      cases hst
  obtain ⟨hk2, rfl⟩ := hmass
  refine ⟨⟨i3, q2 m8 i1, h.link.same hsame, e2, (seps_same hsame).trans h.seps⟩, ?_⟩
  unfold forwardRoundIn absorbIn
  by_cases hg1 : Granted fails w.tried (w.tried + arr)
  swap
  · rw [hd1.2 (refused_of hg1)]
    refine ⟨fun hg => absurd (fun i i1 i2 => hg.1 i i1 (by omega)) hg1, fun _ => rfl⟩
  rw [hd1.1 hg1]
  simp only [ok_bind]
  by_cases hg2 : Granted fails (w.tried + arr) (w.tried + arr + 4 * b)
  swap
  · rw [(hd2 ⟨w.tried + arr, w.held⟩).2 (refused_of hg2)]
    refine ⟨fun hg => absurd (fun i i1 i2 => hg.1 i (by omega) (by omega)) hg2, fun _ => rfl⟩
  rw [(hd2 ⟨w.tried + arr, w.held⟩).1 hg2]
  have hearly1 : Granted fails w.tried (w.tried + early) := by rw [he]; exact split_granted.mpr ⟨hg1, hg2⟩
  have hte : w.tried + arr + 4 * b = w.tried + early := by omega
  simp only [ok_bind, p1, hte]
  rw [b2]
  simp only [ok_bind]
  by_cases hg3 : Granted fails (w.tried + early + n) (w.tried + early + n + 4 * b)
  swap
  · rw [(hd5 ⟨w.tried + early + n, w.held⟩).2 (refused_of hg3)]
    refine ⟨fun hg => absurd (fun i i1 i2 => hg.2 i (by omega) (by omega)) hg3, fun _ => rfl⟩
  rw [(hd5 ⟨w.tried + early + n, w.held⟩).1 hg3]
  simp only [ok_bind, o1, if_pos hk2]
  rw [(hpost _).2]
  simp only [ok_bind]
  by_cases hg4 : Granted fails (w.tried + early + n + 4 * b) (w.tried + early + n + 4 * b + x)
  swap
  · rw [(hdst ⟨w.tried + early + n + 4 * b, w.held⟩).2 (refused_of hg4)]
    refine ⟨fun hg => absurd (fun i i1 i2 => hg.2 i (by omega) (by omega)) hg4, fun _ => rfl⟩
  rw [(hdst ⟨w.tried + early + n + 4 * b, w.held⟩).1 hg4]
  have e3 := r1 ⟨w.tried + early + n + 4 * b + x, w.held⟩
  rw [g1, ok_bind] at e3
  simp only at e3
  simp only [ok_bind]
  rw [e3]
  have e4 := q1 ⟨w.tried + early + n + 4 * b + x, w.held⟩
  rw [i1, ok_bind] at e4
  simp only at e4
  simp only [ok_bind]
  rw [e4]
  refine ⟨fun _ => ?_, fun hno => absurd ⟨hearly1, by rw [hla]; exact split_granted.mpr ⟨hg3, hg4⟩⟩ hno⟩
  simp only [ok_bind, ok.injEq, Prod.mk.injEq, Loans.mk.injEq, true_and, and_true]
  omega

/-- the series without the values that are lost -/
def keptSeries (fails : Nat → Bool) (marked : Nat → Bool) (linked : Bool) (b k : Nat) (ts : TimeSeries) : TimeSeries :=
  { ts with data := keptRows fails marked linked b k ts.observed ts.data }

theorem keptSeries_wf {fails : Nat → Bool} {marked : Nat → Bool} {linked : Bool} {b k : Nat} {ts : TimeSeries} (h : ts.WellFormed) : (keptSeries fails marked linked b k ts).WellFormed where
  observed := h.observed
  hidden := h.hidden
  rows := by
    have : (keptRows fails marked linked b k ts.observed ts.data).length = ts.data.length := by unfold keptRows; simp
    exact this.trans h.rows
  row := by
    intro row hr
    unfold keptSeries keptRows at hr
    simp only [List.mem_mapIdx] at hr
    obtain ⟨i, hi, rfl⟩ := hr
    rw [thinRow_length]
    exact h.row _ (List.getElem_mem _)

theorem roundLoopIn_any (fails : Nat → Bool) (g : Logs K) (w : Loans) {s : Interface} {b : Nat} {st : Filter K} (h : Ready card vars s b st) {ts : TimeSeries} (hts : Usable vars ts)
    (marked : Nat → Bool) {vs : List Nat} (hvs : ∀ v ∈ vs, v ∈ vars) {linked : Bool} (hl : linked = decide (s.out ≠ [])) (n : Nat) (hn : n ≤ ts.length) :
    ∀ st', loop n (forwardStep (some g) s marked (keptSeries fails marked linked b w.tried ts) vs) st = ok st' → Ready card vars s b st' ∧
    ((∀ t, t < n → RoundServed fails linked b w.tried (valueCount marked ts.observed ts.data) t) →
        loop n (forwardRoundIn fails g s marked ts vs) (st, w) = ok (st', ⟨w.tried + roundBegins linked b (valueCount marked ts.observed ts.data) n, w.held⟩)) ∧
    (¬ (∀ t, t < n → RoundServed fails linked b w.tried (valueCount marked ts.observed ts.data) t) → loop n (forwardRoundIn fails g s marked ts vs) (st, w) = ub) := by
  induction n with
  | zero =>
    intro st' hst
    have : (ok st : Res (Filter K)) = ok st' := hst
    simp only [ok.injEq] at this
    subst this
    exact ⟨h, fun _ => rfl, fun hno => absurd (fun t ht => absurd ht (Nat.not_lt_zero t)) hno⟩
  | succ n ih =>
    intro st' hst
    rw [loop_succ] at hst
    obtain ⟨st1, k1, k2⟩ := bind_ok hst
    obtain ⟨k3, ih1, ih2⟩ := ih (by omega) st1 k1
    rw [loop_succ]
    have hnd : n < ts.data.length := by rw [hts.wf.rows]; omega
    have hcount : valueCount marked ts.observed ts.data n = (presentValues marked ts.observed ts.data[n]).length := by
      unfold valueCount
      simp [hnd]
    have hthin : (keptSeries fails marked linked b w.tried ts).data[n]? =
        some (thinRow fails marked (w.tried + roundBegins linked b (valueCount marked ts.observed ts.data) n + earlyRequests linked b n) ts.observed ts.data[n]) := by
      unfold keptSeries keptRows
      simp [hnd]
    obtain ⟨j2, j3, j4⟩ := forwardRoundIn_any fails g ⟨w.tried + roundBegins linked b (valueCount marked ts.observed ts.data) n, w.held⟩ k3 hts marked hvs (t := n) (by omega)
      (List.getElem?_eq_getElem hnd) (ts' := keptSeries fails marked linked b w.tried ts) rfl rfl rfl rfl hl rfl hcount rfl hthin k2
    refine ⟨j2, ?_⟩
    by_cases hall : ∀ t, t < n → RoundServed fails linked b w.tried (valueCount marked ts.observed ts.data) t
    · rw [ih1 hall]
      refine ⟨fun hs => ?_, fun hno => ?_⟩
      · have := j3 (hs n (Nat.lt_add_one n))
        refine Eq.trans this ?_
        simp only [ok.injEq, Prod.mk.injEq, Loans.mk.injEq, true_and, and_true, roundBegins]
        omega
      · refine j4 (fun hs => hno fun t ht => ?_)
        rcases Nat.lt_succ_iff_lt_or_eq.mp ht with h1 | rfl
        · exact hall t h1
        · exact hs
    · rw [ih2 hall]
      exact ⟨fun hs => absurd (fun t ht => hs t (by omega)) hall, fun _ => rfl⟩

/-- Forward inference with the likelihood and failing allocations, if it is defined with unlimited memory for the series without the values lost. -/
theorem likelihoodIn_any (fails : Nat → Bool) (g : Logs K) (w : Loans) {m : Model K} (h : Fits' card vars m) (hset : Settled vars m) {s : Interface} (hs : Link card vars m s)
    (hpos : ∀ v ∈ vars, 0 < card v) {b : Nat} (hb : (m.tree.sepsets.filter (fun s => s.vars ≠ [])).length = b) {ts : TimeSeries} (hts : Usable vars ts) (marked : Nat → Bool) {vs : List Nat}
    (hvs : ∀ v ∈ vs, v ∈ vars) {linked : Bool} (hl : linked = decide (s.out ≠ [])) {r : List (List (List K)) × K × Model K}
    (hplain : forwardInference (some g) s marked (keptSeries fails marked linked b w.tried ts) vs m = ok r) :
    ((∀ t, t < ts.length → RoundServed fails linked b w.tried (valueCount marked ts.observed ts.data) t) →
        forwardLikelihoodIn fails g s marked ts vs m w = ok (r, ⟨w.tried + roundBegins linked b (valueCount marked ts.observed ts.data) ts.length, w.held⟩)) ∧
    (¬ (∀ t, t < ts.length → RoundServed fails linked b w.tried (valueCount marked ts.observed ts.data) t) → forwardLikelihoodIn fails g s marked ts vs m w = ub) := by
  have hP : Closed (fun _ : K => True) := JTree.closed_all
  obtain ⟨a, a1, a2⟩ := newMessage_any hP h hs hpos
  obtain ⟨m1, b1, b2, b3⟩ := reset_any hP h
  obtain ⟨r1, r2⟩ := resetIn_step fails hset
  obtain ⟨m2, c1, c2, c3⟩ := usePriors_any hP b3 false
  obtain ⟨q1, q2⟩ := usePriorsIn_step fails (r2 m1 b1) false
  have hready : Ready card vars s b { model := m2, alpha := a, results := [], ll := 0 } :=
    ⟨c3, q2 m2 c1, hs.same (b2.trans c2), a2, (seps_same (b2.trans c2)).trans hb⟩
  unfold forwardInference at hplain
  simp only [a1, ok_bind, b1, c1] at hplain
  obtain ⟨st', k1, k2⟩ := bind_ok hplain
  simp only [ok.injEq] at k2
  subst k2
  obtain ⟨_, l1, l2⟩ := roundLoopIn_any fails g w hready hts marked hvs hl ts.length (le_refl _) st' k1
  have e3 := r1 w
  rw [b1, ok_bind] at e3
  simp only at e3
  have e4 := q1 w
  rw [c1, ok_bind] at e4
  simp only at e4
  unfold forwardLikelihoodIn
  simp only [a1, ok_bind, e3, e4]
  refine ⟨fun hall => ?_, fun hno => ?_⟩
  · rw [l1 hall]
    rfl
  · rw [l2 hno]
    rfl

end Model

end Nip
