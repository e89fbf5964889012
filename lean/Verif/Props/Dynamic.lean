import Verif.Causal
import Verif.Filtering
import Verif.Props.Inference

/-!
# Properties C52 and C53: forward inference over time

The meaning of a network with temporal links is given by unrolling it over time slices (`Verif/Spec/Unrolled.lean`): sums of weights of
assignments to all slices.  The code never builds the unrolled network.
-/

namespace Nip

open Res Spec

set_option linter.unusedSectionVars false

variable {K : Type} [Field K] [LinearOrder K]

namespace Props

/-- **C52** For all models: if two series about the same variables have the same first `n` rows, then forward inference reports the same
for the first `n` time steps. -/
theorem C52_filtering_is_causal (lg : Option (Logs K)) (s : Interface) (marked : Nat → Bool) (vars : List Nat) (m : Model K) {ts ts' : TimeSeries} {n : Nat}
    (hv : ts.numVars = ts'.numVars) (hh : ts.numHidden = ts'.numHidden) (ho : ts.observed = ts'.observed)
    (hn : n ≤ ts.length) (hn' : n ≤ ts'.length) (hd : ts.data.take n = ts'.data.take n)
    {results results' : List (List (List K))} {ll ll' : K} {m1 m1' : Model K}
    (h : forwardInference lg s marked ts vars m = ok (results, ll, m1)) (h' : forwardInference lg s marked ts' vars m = ok (results', ll', m1')) :
    results.length = ts.length ∧ results'.length = ts'.length ∧ results.take n = results'.take n := by
  unfold forwardInference at h h'
  cases e1 : newMessage s m with
  | ub => rw [e1] at h; cases h
  | ok a =>
  cases e2 : m.reset with
  | ub => rw [e1, ok_bind, e2] at h; cases h
  | ok m2 =>
  cases e3 : m2.usePriors false with
  | ub => rw [e1, ok_bind, e2, ok_bind, e3] at h; cases h
  | ok m3 =>
  rw [e1, ok_bind, e2, ok_bind, e3, ok_bind] at h h'
  cases e4 : loop ts.length (forwardStep lg s marked ts vars) { model := m3, alpha := a, results := [], ll := 0 } with
  | ub => rw [e4] at h; cases h
  | ok st =>
  cases e5 : loop ts'.length (forwardStep lg s marked ts' vars) { model := m3, alpha := a, results := [], ll := 0 } with
  | ub => rw [e5] at h'; cases h'
  | ok st' =>
  rw [e4, ok_bind] at h
  rw [e5, ok_bind] at h'
  have hr : st.results = results := by cases h; rfl
  have hr' : st'.results = results' := by cases h'; rfl
  obtain ⟨sk, a1, a2, a3⟩ := loop_results hn rfl e4
  obtain ⟨sk', b1, b2, b3⟩ := loop_results hn' rfl e5
  have hc : loop n (forwardStep lg s marked ts vars) { model := m3, alpha := a, results := [], ll := 0 } =
      loop n (forwardStep lg s marked ts' vars) { model := m3, alpha := a, results := [], ll := 0 } :=
    loop_congr (fun t ht st => forwardStep_eq hv hh ho (by omega) (by omega) (by
      have := congrArg (fun l => l[t]?) hd
      simpa [List.getElem?_take, ht] using this) st)
  rw [hc, b1] at a1
  have : sk' = sk := by cases a1; rfl
  rw [← hr, ← hr', a2, b2, this]
  exact ⟨a3, b3, rfl⟩

variable [IsStrictOrderedRing K]

/-- The full claim of C53, about one file, a history of use of the model, a series and the variables asked for: the results are the
probabilities in the network unrolled up to the time in question, given what has been seen up to then.  Nothing is said when that is
impossible. -/
def Filters (ptr : Nat) (f : NetFile K) (hist : List (Op K)) (lg : Option (Logs K)) (marked : Nat → Bool) (ts : TimeSeries) (vars : List Nat) : Prop :=
  ∃ m0 s m results ll m', NetFile.parseModel ptr f = ok (some (m0, s)) ∧ m0.performAll hist = ok m ∧
    forwardInference lg s marked ts vars m = ok (results, ll, m') ∧ results.length = ts.length ∧
    ∀ t i v : Nat, t < ts.length → vars[i]? = some v →
      f.unrolledTotal (dataSees marked ts.observed ts.data) (t + 1) (fun _ => True) ≠ 0 →
      (results[t]?.bind (fun (row : List (List K)) => row[i]?)) = some (f.unrolledPosterior (dataSees marked ts.observed ts.data) (t + 1) t v)

/-- **C53**, for files whose temporal links make sense (`NetFile.Temporal`): every variable with a successor is a parent of something, the
successor has the same number of states, and different variables have different successors.  What is missing: the first and the last
condition cannot be dropped (`C53_unlinked_refuted`, `C53_shared_next_refuted`). -/
theorem C53_filtering_partial (ptr : Nat) {f : NetFile K} (hf : f.Valid) (htm : f.Temporal) {hist : List (Op K)} (hh : ∀ op ∈ hist, op.Valid f.net)
    (lg : Option (Logs K)) (marked : Nat → Bool) {ts : TimeSeries} (hts : ts.WellFormed) (hnd : ts.observed.Nodup) (hob : ∀ v ∈ ts.observed, v ∈ f.vars)
    {vars : List Nat} (hvars : ∀ v ∈ vars, v ∈ f.vars) : Filters ptr f hist lg marked ts vars := by
  obtain ⟨m0, s, h1, h2, h3, h4, h5, h6⟩ := interface_spec ptr hf htm
  obtain ⟨m, g1, g2, g3⟩ := Model.performAll_spec hist h3 hh
  obtain ⟨results, ll, m', e1, e2, _, _, e3, _⟩ := forward_spec hf htm ⟨h5, h6⟩ ⟨hts, hnd, hob⟩ marked lg hvars g3 (h4.keep g2.1.skel)
  refine ⟨m0, s, m, results, ll, m', h1, g1, e1, e2, ?_⟩
  intro t i v ht hv hne
  have hr : results[t]? = some results[t] := List.getElem?_eq_getElem (by omega)
  rw [hr]
  have := e3 t _ hr hne
  show (results[t])[i]? = _
  rw [this, List.getElem?_map, hv]
  rfl

/-- Variable 2 stands for variable 1 of the slice before, but is not a parent of anything. -/
def unlinked : NetFile ℚ where
  vars := [1, 2]
  card := fun _ => 2
  next := fun v => if v = 2 then some 1 else none
  pots := [{ child := 1, parents := [], table := { card := [2], data := [1 / 4, 3 / 4] } },
    { child := 2, parents := [], table := { card := [2], data := [1 / 2, 1 / 2] } }]

theorem unlinked_valid : unlinked.Valid where
  sorted := by decide
  ids := by decide
  states := fun _ _ => Nat.zero_lt_two
  tables := by simp [unlinked]
  child := by decide +kernel
  parents := by decide +kernel
  distinct := by decide +kernel
  shape := by decide +kernel
  nonneg := by decide +kernel

/-- Two time steps without any data. -/
def silence : TimeSeries where
  numVars := 2
  numHidden := 2
  hidden := [1, 2]
  numObserved := 0
  observed := []
  length := 2
  data := [[], []]

theorem silence_wellFormed : silence.WellFormed where
  observed := rfl
  hidden := rfl
  rows := rfl
  row := by decide

/-- Results of forward inference, computed. -/
def filtered (f : NetFile ℚ) (ts : TimeSeries) (vars : List Nat) : Res (List (List (List ℚ))) := do
  let r ← NetFile.parseModel 8 f
  match r with
  | none => ub
  | some (m, s) => do
    let (results, _, _) ← forwardInference none s (fun _ => true) ts vars m
    ok results

theorem Filters.result {f : NetFile ℚ} {ts : TimeSeries} {vars : List Nat} (h : Filters 8 f [] none (fun _ => true) ts vars) :
    ∃ results, filtered f ts vars = ok results ∧ ∀ t i v : Nat, t < ts.length → vars[i]? = some v →
      f.unrolledTotal (dataSees (fun _ => true) ts.observed ts.data) (t + 1) (fun _ => True) ≠ 0 →
      (results[t]?.bind (fun (row : List (List ℚ)) => row[i]?)) = some (f.unrolledPosterior (dataSees (fun _ => true) ts.observed ts.data) (t + 1) t v) := by
  obtain ⟨m0, s, m, results, ll, m', h1, h2, h3, _, h4⟩ := h
  cases h2
  refine ⟨results, ?_, h4⟩
  unfold filtered
  rw [h1, ok_bind]
  simp only
  rw [h3, ok_bind]

theorem unlinked_weight (first : Prop) [Decidable first] (seen : Nat → Int) (hs : ∀ v, seen v = -1) (x : Nat → Nat) (h1 : x 1 < 2) (h2 : x 2 < 2) :
    unlinked.sliceWeight first seen x = (if x 1 = 0 then 1 / 4 else 3 / 4) * (if first then 1 / 2 else 1) := by
  have hroots : unlinked.net.roots = [1, 2] := by decide +kernel
  have hp1 : unlinked.net.prior 1 = [1 / 4, 3 / 4] := by decide +kernel
  have hp2 : unlinked.net.prior 2 = [1 / 2, 1 / 2] := by decide +kernel
  have hu1 : Usable (unlinked.net.card 1) (unlinked.net.prior 1) := ⟨0, by decide, by rw [hp1]; decide +kernel⟩
  have hu2 : Usable (unlinked.net.card 2) (unlinked.net.prior 2) := ⟨0, by decide, by rw [hp2]; decide +kernel⟩
  have hn1 : unlinked.next 1 = none := by decide
  have hn2 : unlinked.next 2 ≠ none := by decide
  have htab : unlinked.net.tables x = 1 := by
    have : (unlinked.pots.filter (fun q => decide (q.parents ≠ []))) = [] := List.filter_eq_nil_iff.mpr (by simp [unlinked])
    unfold NetFile.net
    simp only
    rw [this]; rfl
  have hv : ∀ v, x v < 2 → (vision unlinked.card seen v : List ℚ).getD (x v) 0 = 1 := by
    intro v h
    unfold vision
    rw [if_pos (by rw [hs]; decide)]
    show (List.replicate 2 (1 : ℚ)).getD (x v) 0 = 1
    rcases (by omega : x v = 0 ∨ x v = 1) with h | h <;> rw [h] <;> rfl
  unfold NetFile.sliceWeight weightOf
  rw [htab, hroots]
  show 1 * _ * (([1, 2] : List Nat).map (fun v => (vision unlinked.card seen v : List ℚ).getD (x v) 0)).prod = _
  simp only [List.map_cons, List.map_nil, List.prod_cons, List.prod_nil, hv 1 h1, hv 2 h2, hp1, hp2]
  rw [if_pos ⟨Or.inr hn1, hu1⟩]
  rcases (by omega : x 1 = 0 ∨ x 1 = 1) with h | h <;> rcases (by omega : x 2 = 0 ∨ x 2 = 1) with h' | h' <;> rw [h, h'] <;>
    by_cases hf : first <;> simp [hf, hn2, hu2]

theorem unlinked_unrolled (seen : Nat → Nat → Int) (hs : ∀ t v, seen t v = -1) (X : Nat → Nat → Nat) (h : ∀ t v, X t v < 2) :
    unlinked.unrolledWeight seen 2 X = if X 1 2 = X 0 1 then (if X 0 1 = 0 then 1 / 4 else 3 / 4) * (1 / 2) * (if X 1 1 = 0 then 1 / 4 else 3 / 4) else 0 := by
  have hl : (∀ s, s + 1 < 2 → unlinked.Linked (X s) (X (s + 1))) ↔ X 1 2 = X 0 1 := by
    constructor
    · intro hh
      exact hh 0 (by omega) 2 (by decide) 1 (by decide)
    · intro hh s hs v hv u hu
      obtain rfl : s = 0 := by omega
      have hv' : v = 1 ∨ v = 2 := by simpa [unlinked] using hv
      rcases hv' with rfl | rfl
      · have : unlinked.next 1 = some u := hu
        rw [show unlinked.next 1 = none from rfl] at this; cases this
      · have : u = 1 := by
          have : unlinked.next 2 = some u := hu
          have h2 : unlinked.next 2 = some 1 := by decide
          rw [h2] at this; cases this; rfl
        rw [this]; exact hh
  unfold NetFile.unrolledWeight
  by_cases hc : X 1 2 = X 0 1
  · rw [if_pos (hl.mpr hc), if_pos hc, Finset.prod_range_succ, Finset.prod_range_one, unlinked_weight _ _ (hs 0) _ (h 0 1) (h 0 2),
      unlinked_weight _ _ (hs 1) _ (h 1 1) (h 1 2)]
    simp
  · rw [if_neg (fun hh => hc (hl.mp hh)), if_neg hc]

open Classical in
theorem unlinked_total (seen : Nat → Nat → Int) (hs : ∀ t v, seen t v = -1) (P : (Nat → Nat → Nat) → Prop) :
    unlinked.unrolledTotal seen 2 P = sumSlices (fun _ => 2) [1, 2] [0, 1]
      (fun X => if P X then (if X 1 2 = X 0 1 then (if X 0 1 = 0 then 1 / 4 else 3 / 4) * (1 / 2) * (if X 1 1 = 0 then 1 / 4 else 3 / 4) else 0) else 0)
      (fun _ _ => 0) := by
  have hw := unlinked_unrolled seen hs
  have hl : ∀ a b c d : Nat, a < 2 → b < 2 → c < 2 → d < 2 → ∀ t v, Function.update (Function.update (fun _ _ => 0) 0
      (Function.update (Function.update (fun _ => 0) 1 a) 2 b)) 1 (Function.update (Function.update (fun _ => 0) 1 c) 2 d) t v < 2 := by
    intro a b c d ha hb hc hd t v
    have hz : ∀ a b v : Nat, a < 2 → b < 2 → Function.update (Function.update (fun _ => 0) 1 a) 2 b v < 2 := by
      intro a b v ha hb
      simp only [Function.update_apply]
      split_ifs <;> omega
    by_cases h1 : t = 1
    · subst h1; rw [Function.update_self]; exact hz _ _ _ hc hd
    · rw [Function.update_of_ne h1]
      by_cases h0 : t = 0
      · subst h0; rw [Function.update_self]; exact hz _ _ _ ha hb
      · rw [Function.update_of_ne h0]; exact Nat.zero_lt_two
  show sumSlices (fun _ => 2) [1, 2] [0, 1] _ _ = _
  simp only [sumSlices, sumOver]
  refine Finset.sum_congr rfl fun a ha => Finset.sum_congr rfl fun b hb => Finset.sum_congr rfl fun c hc => Finset.sum_congr rfl fun d hd => ?_
  rw [hw _ (hl a b c d (Finset.mem_range.mp ha) (Finset.mem_range.mp hb) (Finset.mem_range.mp hc) (Finset.mem_range.mp hd))]

/-- **C53** is false without the condition that every variable with a successor is a parent of something: `parse_model` takes only such
variables into the interface (`OLD_OUTGOING`), so a variable without children is not told what its successor was in the slice before, and
gets the posterior of a variable without a prior. -/
theorem C53_unlinked_refuted : ¬ ∀ (ptr : Nat) (f : NetFile ℚ), f.Valid → (∀ v ∈ f.vars, ∀ u ∈ f.next v, u ∈ f.vars ∧ f.card u = f.card v) →
    (∀ v ∈ f.vars, ∀ w ∈ f.vars, ∀ u, f.next v = some u → f.next w = some u → v = w) →
    ∀ ts : TimeSeries, ts.WellFormed → ts.observed.Nodup → (∀ v ∈ ts.observed, v ∈ f.vars) → ∀ vars : List Nat, (∀ v ∈ vars, v ∈ f.vars) →
      Filters ptr f [] none (fun _ => true) ts vars := by
  intro h
  have hn : ∀ v u : Nat, unlinked.next v = some u → v = 2 ∧ u = 1 := by
    intro v u hu
    simp only [unlinked] at hu
    split_ifs at hu with h2
    exact ⟨h2, by cases hu; rfl⟩
  obtain ⟨results, h1, h2⟩ := (h 8 unlinked unlinked_valid (by
      intro v _ u hu
      rw [(hn v u hu).2]
      exact ⟨by decide, rfl⟩) (fun v _ w _ u h1 h2 => by rw [(hn v u h1).1, (hn w u h2).1]) silence silence_wellFormed (by decide) (by decide) [2] (by decide)).result
  have hc : filtered unlinked silence [2] = ok [[[1 / 2, 1 / 2]], [[1 / 2, 1 / 2]]] := by decide +kernel
  rw [hc] at h1
  cases h1
  have hs : ∀ t v, dataSees (fun _ => true) silence.observed silence.data t v = -1 := by
    intro t v
    unfold dataSees rowSees
    have : silence.data.getD t [] = [] := by
      rcases t with _ | _ | t <;> rfl
    rw [this]; rfl
  have e := h2 1 0 2 (by decide) rfl (by
    rw [unlinked_total _ hs]
    simp [sumSlices, sumOver, Finset.sum_range_succ]
    norm_num)
  have e0 := congrArg (fun o : Option (List ℚ) => (o.getD []).getD 0 0) e
  unfold NetFile.unrolledPosterior at e0
  rw [unlinked_total _ hs, show List.range (unlinked.card 2) = [0, 1] from rfl] at e0
  simp only [List.map_cons, unlinked_total _ hs] at e0
  simp [sumSlices, sumOver, Finset.sum_range_succ] at e0
  norm_num at e0

/-- Variables 2 and 3 both stand for variable 1 of the slice before. -/
def shared : NetFile ℚ where
  vars := [1, 2, 3]
  card := fun _ => 2
  next := fun v => if v = 1 then none else some 1
  pots := [{ child := 1, parents := [2, 3], table := { card := [2, 2, 2], data := [1, 0, 1 / 2, 1 / 2, 1 / 2, 1 / 2, 0, 1] } },
    { child := 2, parents := [], table := { card := [2], data := [1 / 2, 1 / 2] } },
    { child := 3, parents := [], table := { card := [2], data := [1 / 2, 1 / 2] } }]

theorem shared_valid : shared.Valid where
  sorted := by decide
  ids := by decide
  states := fun _ _ => Nat.zero_lt_two
  tables := by simp [shared]
  child := by decide +kernel
  parents := by decide +kernel
  distinct := by decide +kernel
  shape := by decide +kernel
  nonneg := by decide +kernel

/-- **C53** is false without the condition that different variables have different successors: the arrays of the interface have one place
for every variable with the bit `OUTGOING`, but `parse_model` writes one item for every variable with the bit `OLD_OUTGOING`
(`src/nip.c:183-187`, `src/nip.c:226-233`), which is beyond the ends of the arrays. -/
theorem C53_shared_next_refuted : ¬ ∀ (ptr : Nat) (f : NetFile ℚ), f.Valid → (∀ v ∈ f.vars, ∀ u ∈ f.next v, ∃ q ∈ f.pots, v ∈ q.parents) →
    (∀ v ∈ f.vars, ∀ u ∈ f.next v, u ∈ f.vars ∧ f.card u = f.card v) → NetFile.parseModel ptr f ≠ ub := by
  intro h
  refine h 8 shared shared_valid ?_ ?_ ?_
  · intro v hv u hu
    have hv' : v = 1 ∨ v = 2 ∨ v = 3 := by simpa [shared] using hv
    refine ⟨_, List.mem_cons_self .., ?_⟩
    rcases hv' with rfl | rfl | rfl
    · have : shared.next 1 = some u := hu
      rw [show shared.next 1 = none from rfl] at this; cases this
    · decide
    · decide
  · intro v hv u hu
    have : u = 1 := by
      have hu : shared.next v = some u := hu
      simp only [shared] at hu
      split_ifs at hu
      cases hu; rfl
    rw [this]
    exact ⟨by decide, rfl⟩
  · have : (NetFile.parseModel 8 shared >>= fun _ => ok ()) = (ub : Res Unit) := by decide +kernel
    cases e : NetFile.parseModel 8 shared with
    | ub => rfl
    | ok r => rw [e] at this; cases this

/-- A hidden Markov model: variable 1 given variable 2, which is variable 1 of the slice before, and an observed variable 3 given 1. -/
def hmm : NetFile ℚ where
  vars := [1, 2, 3]
  card := fun _ => 2
  next := fun v => if v = 2 then some 1 else none
  pots := [{ child := 1, parents := [2], table := { card := [2, 2], data := [3 / 4, 1 / 4, 1 / 3, 2 / 3] } },
    { child := 2, parents := [], table := { card := [2], data := [1 / 2, 1 / 2] } },
    { child := 3, parents := [1], table := { card := [2, 2], data := [9 / 10, 1 / 5, 1 / 10, 4 / 5] } }]

theorem hmm_valid : hmm.Valid where
  sorted := by decide
  ids := by decide
  states := fun _ _ => Nat.zero_lt_two
  tables := by simp [hmm]
  child := by decide +kernel
  parents := by decide +kernel
  distinct := by decide +kernel
  shape := by decide +kernel
  nonneg := by decide +kernel

theorem hmm_temporal : hmm.Temporal := by
  have hn : ∀ v u : Nat, hmm.next v = some u → v = 2 ∧ u = 1 := by
    intro v u hu
    simp only [hmm] at hu
    split_ifs at hu with h2
    exact ⟨h2, by cases hu; rfl⟩
  refine ⟨?_, ?_, ?_⟩
  · intro v _ u hu
    rw [(hn v u hu).1]
    exact ⟨_, List.mem_cons_self .., by decide⟩
  · intro v _ u hu
    rw [(hn v u hu).2]
    exact ⟨by decide, rfl⟩
  · intro v _ w _ u h1 h2
    rw [(hn v u h1).1, (hn w u h2).1]

/-- Three time steps; variable 3 is seen in the first and the third. -/
def sightings : TimeSeries where
  numVars := 3
  numHidden := 2
  hidden := [1, 2]
  numObserved := 1
  observed := [3]
  length := 3
  data := [[0], [-1], [1]]

theorem sightings_wellFormed : sightings.WellFormed where
  observed := rfl
  hidden := rfl
  rows := rfl
  row := by decide

/-- The hypotheses of C53 are met, after a history of use. -/
example : Filters 8 hmm [.priors false, .observe 3 1, .propagate] none (fun _ => true) sightings [1, 3] :=
  C53_filtering_partial 8 hmm_valid hmm_temporal (by
    intro op hop
    simp only [List.mem_cons, List.not_mem_nil, or_false] at hop
    have h3 : (3 : Nat) ∈ hmm.net.vars := by decide
    rcases hop with rfl | rfl | rfl
    · trivial
    · exact h3
    · trivial) none _ sightings_wellFormed (by decide) (by decide) (by decide)

/-- What is computed for the series (checked by hand for the first step: `13 / 24 * 9 / 10` to `11 / 24 * 1 / 5`). -/
example : (filtered hmm sightings [1] >>= fun r => ok (r.take 1)) = ok [[[117 / 139, 22 / 139]]] := by decide +kernel

/-- The hypotheses of C52 are met: a series that differs in the last step has different results there. -/
example : (filtered hmm sightings [1] >>= fun r => ok (r.take 2)) = (filtered hmm { sightings with data := [[0], [-1], [0]] } [1] >>= fun r => ok (r.take 2)) ∧
    filtered hmm sightings [1] ≠ filtered hmm { sightings with data := [[0], [-1], [0]] } [1] := by decide +kernel

end Props
end Nip
