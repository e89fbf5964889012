import Mathlib.NumberTheory.Padics.PadicVal.Basic
import Verif.Likelihood
import Verif.Props.Dynamic

/-!
# Properties C56 to C58: forward-backward inference and the likelihood

As in C53, the meaning is given by the unrolled network (`Verif/Spec/Unrolled.lean`).
-/

namespace Nip

open Res Spec

set_option linter.unusedSectionVars false

variable {K : Type} [Field K] [LinearOrder K] [IsStrictOrderedRing K]

/-- A call of `forward_inference` or `forward_backward_inference`. -/
structure Call (K : Type) where
  backward : Bool
  lg : Option (Logs K)
  marked : Nat → Bool
  ts : TimeSeries
  vars : List Nat

def Call.run (c : Call K) (s : Interface) (m : Model K) : Res (List (List (List K)) × K × Model K) :=
  if c.backward then forwardBackward c.lg s c.marked c.ts c.vars m else forwardInference c.lg s c.marked c.ts c.vars m

def Call.runAll (s : Interface) (calls : List (Call K)) (m : Model K) : Res (Model K) :=
  calls.foldlM (fun m c => do
    let (_, _, m) ← c.run s m
    ok m) m

namespace Props

/-- The full claim of C56, about one file, a history of use of the model, a series and the variables asked for: the results are the
probabilities in the network unrolled over the whole series, given all that is seen.  Nothing is said when that is impossible. -/
def Smooths (ptr : Nat) (f : NetFile K) (hist : List (Op K)) (lg : Option (Logs K)) (marked : Nat → Bool) (ts : TimeSeries) (vars : List Nat) : Prop :=
  ∃ m0 s m results ll m', NetFile.parseModel ptr f = ok (some (m0, s)) ∧ m0.performAll hist = ok m ∧
    forwardBackward lg s marked ts vars m = ok (results, ll, m') ∧ results.length = ts.length ∧
    (f.unrolledTotal (dataSees marked ts.observed ts.data) ts.length (fun _ => True) ≠ 0 → ∀ t i v : Nat, t < ts.length → vars[i]? = some v →
      (results[t]?.bind (fun (row : List (List K)) => row[i]?)) = some (f.unrolledPosterior (dataSees marked ts.observed ts.data) ts.length t v))

/-- **C56**, for files whose temporal links make sense (`NetFile.Temporal`).  What is missing: as for C53, the condition cannot be dropped
(`C56_unlinked_refuted`). -/
theorem C56_smoothing_partial (ptr : Nat) {f : NetFile K} (hf : f.Valid) (htm : f.Temporal) {hist : List (Op K)} (hh : ∀ op ∈ hist, op.Valid f.net)
    (lg : Option (Logs K)) (marked : Nat → Bool) {ts : TimeSeries} (hts : ts.WellFormed) (hnd : ts.observed.Nodup) (hob : ∀ v ∈ ts.observed, v ∈ f.vars)
    {vars : List Nat} (hvars : ∀ v ∈ vars, v ∈ f.vars) : Smooths ptr f hist lg marked ts vars := by
  obtain ⟨m0, s, h1, h2, h3, h4, h5, h6⟩ := interface_spec ptr hf htm
  obtain ⟨m, g1, g2, g3⟩ := Model.performAll_spec hist h3 hh
  obtain ⟨results, ll, m', e1, e2, _, _, e3, _⟩ := smooth_spec hf htm ⟨h5, h6⟩ ⟨hts, hnd, hob⟩ marked lg hvars g3.carries (h4.keep g2.1.skel)
  refine ⟨m0, s, m, results, ll, m', h1, g1, e1, e2, ?_⟩
  intro hne t i v ht hv
  have hr : results[t]? = some results[t] := List.getElem?_eq_getElem (by omega)
  rw [hr]
  have := e3 hne t _ hr
  show (results[t])[i]? = _
  rw [this, List.getElem?_map, hv]
  rfl

/-- Results of forward-backward inference, computed. -/
def smoothed (f : NetFile ℚ) (ts : TimeSeries) (vars : List Nat) : Res (List (List (List ℚ))) := do
  let r ← NetFile.parseModel 8 f
  match r with
  | none => ub
  | some (m, s) => do
    let (results, _, _) ← forwardBackward none s (fun _ => true) ts vars m
    ok results

/-- **C56** is false without the condition that every variable with a successor is a parent of something. -/
theorem C56_unlinked_refuted : ¬ ∀ (ptr : Nat) (f : NetFile ℚ), f.Valid → (∀ v ∈ f.vars, ∀ u ∈ f.next v, u ∈ f.vars ∧ f.card u = f.card v) →
    (∀ v ∈ f.vars, ∀ w ∈ f.vars, ∀ u, f.next v = some u → f.next w = some u → v = w) →
    ∀ ts : TimeSeries, ts.WellFormed → ts.observed.Nodup → (∀ v ∈ ts.observed, v ∈ f.vars) → ∀ vars : List Nat, (∀ v ∈ vars, v ∈ f.vars) →
      Smooths ptr f [] none (fun _ => true) ts vars := by
  intro h
  have hn : ∀ v u : Nat, unlinked.next v = some u → v = 2 ∧ u = 1 := by
    intro v u hu
    simp only [unlinked] at hu
    split_ifs at hu with h2
    exact ⟨h2, by cases hu; rfl⟩
  obtain ⟨m0, s, m, results, ll, m', h1, h2, h3, _, h4⟩ := h 8 unlinked unlinked_valid (by
      intro v _ u hu
      rw [(hn v u hu).2]
      exact ⟨by decide, rfl⟩) (fun v _ w _ u h1 h2 => by rw [(hn v u h1).1, (hn w u h2).1]) silence silence_wellFormed (by decide) (by decide) [2] (by decide)
  cases h2
  have hc : smoothed unlinked silence [2] = ok [[[1 / 2, 1 / 2]], [[1 / 2, 1 / 2]]] := by decide +kernel
  have hr : smoothed unlinked silence [2] = ok results := by
    unfold smoothed
    rw [h1, ok_bind]
    simp only
    rw [h3, ok_bind]
  rw [hc] at hr
  cases hr
  have hs : ∀ t v, dataSees (fun _ => true) silence.observed silence.data t v = -1 := by
    intro t v
    unfold dataSees rowSees
    have : silence.data.getD t [] = [] := by
      rcases t with _ | _ | t <;> rfl
    rw [this]; rfl
  have e := h4 (by
    show unlinked.unrolledTotal _ 2 _ ≠ 0
    rw [unlinked_total _ hs]
    simp [sumSlices, sumOver, Finset.sum_range_succ]
    norm_num) 1 0 2 (by decide) rfl
  have e0 := congrArg (fun o : Option (List ℚ) => (o.getD []).getD 0 0) e
  unfold NetFile.unrolledPosterior at e0
  rw [show silence.length = 2 from rfl, unlinked_total _ hs, show List.range (unlinked.card 2) = [0, 1] from rfl] at e0
  simp only [List.map_cons, unlinked_total _ hs] at e0
  simp [sumSlices, sumOver, Finset.sum_range_succ] at e0
  norm_num at e0

/-- The full claim of C57, about one file, a history of use and a series: forward inference and forward-backward inference both report the
sum of the logarithms of the probabilities of the data of each slice given the data of the slices before, and the lowest number if the
data are impossible. -/
def ReportsLikelihood (ptr : Nat) (f : NetFile K) (hist : List (Op K)) (g : Logs K) (marked : Nat → Bool) (ts : TimeSeries) (vars : List Nat) : Prop :=
  ∃ m0 s m r1 m1 r2 m2 ll, NetFile.parseModel ptr f = ok (some (m0, s)) ∧ m0.performAll hist = ok m ∧
    forwardInference (some g) s marked ts vars m = ok (r1, ll, m1) ∧ forwardBackward (some g) s marked ts vars m = ok (r2, ll, m2) ∧
    (f.unrolledTotal (dataSees marked ts.observed ts.data) ts.length (fun _ => True) = 0 → ll = g.lowest) ∧
    (f.unrolledTotal (dataSees marked ts.observed ts.data) ts.length (fun _ => True) ≠ 0 →
      ll = ∑ t ∈ Finset.range ts.length, g.log (f.evidenceProb (dataSees marked ts.observed ts.data) t))

/-- **C57**, for files whose temporal links make sense, if there is a temporal link or the data are possible up to the last slice.  What is
missing: the condition cannot be dropped (`C57_no_interface_refuted`). -/
theorem C57_likelihood_partial (ptr : Nat) {f : NetFile K} (hf : f.Valid) (htm : f.Temporal) {hist : List (Op K)} (hh : ∀ op ∈ hist, op.Valid f.net)
    {g : Logs K} (hg : g.Law) (marked : Nat → Bool) {ts : TimeSeries} (hts : ts.WellFormed) (hnd : ts.observed.Nodup) (hob : ∀ v ∈ ts.observed, v ∈ f.vars)
    {vars : List Nat} (hvars : ∀ v ∈ vars, v ∈ f.vars)
    (hne : (∃ v ∈ f.vars, f.next v ≠ none) ∨ f.unrolledTotal (dataSees marked ts.observed ts.data) (ts.length - 1) (fun _ => True) ≠ 0) :
    ReportsLikelihood ptr f hist g marked ts vars := by
  obtain ⟨m0, s, h1, h2, h3, h4, h5, h6⟩ := interface_spec ptr hf htm
  obtain ⟨m, g1, g2, g3⟩ := Model.performAll_spec hist h3 hh
  have hne' : NetFile.olds f ≠ [] ∨ total f (tsSees marked ts) (ts.length - 1) ≠ 0 := by
    rcases hne with ⟨v, hv, hn⟩ | hn
    · left
      obtain ⟨u, hu⟩ := Option.ne_none_iff_exists'.mp hn
      intro h
      have := mem_olds.mpr ⟨hv, u, hu⟩
      rw [h] at this
      cases this
    · exact Or.inr hn
  obtain ⟨r1, m1, e1⟩ := forward_likelihood hf htm ⟨h5, h6⟩ ⟨hts, hnd, hob⟩ marked hg hvars g3 (h4.keep g2.1.skel) hne'
  obtain ⟨r2, m2, e2⟩ := smooth_likelihood hf htm ⟨h5, h6⟩ ⟨hts, hnd, hob⟩ marked hg hvars g3.carries (h4.keep g2.1.skel) hne'
  exact ⟨m0, s, m, r1, m1, r2, m2, _, h1, g1, e1, e2, fun h => if_pos h, fun h => if_neg h⟩

/-- A network without temporal links: variable 1, and variable 2 which cannot be in state 1. -/
def timeless : NetFile ℚ where
  vars := [1, 2]
  card := fun _ => 2
  next := fun _ => none
  pots := [{ child := 1, parents := [], table := { card := [2], data := [1 / 2, 1 / 2] } },
    { child := 2, parents := [1], table := { card := [2, 2], data := [1, 1, 0, 0] } }]

theorem timeless_valid : timeless.Valid where
  sorted := by decide
  ids := by decide
  states := fun _ _ => Nat.zero_lt_two
  tables := by simp [timeless]
  child := by decide +kernel
  parents := by decide +kernel
  distinct := by decide +kernel
  shape := by decide +kernel
  nonneg := by decide +kernel

/-- In the first step variable 2 is seen in the impossible state; in the second step variable 1 is seen. -/
def impossible : TimeSeries where
  numVars := 2
  numHidden := 0
  hidden := []
  numObserved := 2
  observed := [1, 2]
  length := 2
  data := [[-1, 1], [0, -1]]

theorem impossible_wellFormed : impossible.WellFormed where
  observed := rfl
  hidden := rfl
  rows := rfl
  row := by decide

/-- A function on rational numbers that obeys the law of logarithms: the exponent of the prime 2. -/
def exponents : Logs ℚ where
  log := fun q => (padicValRat 2 q : ℚ)
  lowest := -1000

theorem exponents_law : exponents.Law := by
  intro a b ha hb
  show (padicValRat 2 a : ℚ) - (padicValRat 2 b : ℚ) = ((padicValRat 2 (a / b) : ℤ) : ℚ)
  haveI : Fact (Nat.Prime 2) := ⟨Nat.prime_two⟩
  rw [padicValRat.div ha.ne' hb.ne']
  push_cast; rfl

/-- The likelihoods reported, computed. -/
def likelihoods (f : NetFile ℚ) (ts : TimeSeries) : Res (ℚ × ℚ) := do
  let r ← NetFile.parseModel 8 f
  match r with
  | none => ub
  | some (m, s) => do
    let (_, l1, _) ← forwardInference (some exponents) s (fun _ => true) ts [] m
    let (_, l2, _) ← forwardBackward (some exponents) s (fun _ => true) ts [] m
    ok (l1, l2)

theorem timeless_impossible : timeless.unrolledTotal (dataSees (fun _ => true) impossible.observed impossible.data) 2 (fun _ => True) = 0 := by
  have hsl : ∀ x : Asg, Legal timeless.card timeless.vars x → slice timeless (dataSees (fun _ => true) impossible.observed impossible.data) 0 x = 0 := by
    intro x hx
    have h1 : x 1 < 2 := hx 1 (by decide)
    have h2 : x 2 < 2 := hx 2 (by decide)
    unfold slice NetFile.sliceWeight weightOf
    have htab : timeless.net.tables x = (timeless.entry { child := 2, parents := [1], table := { card := [2, 2], data := [1, 1, 0, 0] } } x) * 1 := rfl
    rcases (by omega : x 2 = 0 ∨ x 2 = 1) with h | h
    · have hz : (timeless.net.vars.map (fun v => (vision (K := ℚ) timeless.card (dataSees (fun _ => true) impossible.observed impossible.data 0) v).getD (x v) 0)).prod = 0 := by
        apply List.prod_eq_zero
        refine List.mem_map.mpr ⟨2, by decide, ?_⟩
        rw [h]; decide +kernel
      rw [hz, mul_zero]
    · have hz : timeless.net.tables x = 0 := by
        rw [htab, mul_one]
        unfold NetFile.entry
        have hfam : timeless.family { child := 2, parents := [1], table := { card := [2, 2], data := [1, 1, 0, 0] } } = [1, 2] := by decide +kernel
        rw [hfam]
        simp only [List.map_cons, List.map_nil, h]
        rcases (by omega : x 1 = 0 ∨ x 1 = 1) with h' | h' <;> rw [h'] <;> decide +kernel
      rw [hz, zero_mul, zero_mul]
  by_contra hne
  have h1 := total_prefix timeless_valid _ (t := 1) hne
  refine h1 ?_
  rw [total_succ]
  rw [sumOver_legal (U := timeless.vars) (g := fun _ => 0) (fun z hz => by rw [hsl z hz, zero_mul]) _ _ (fun v hv hv' => absurd hv hv')]
  exact sumOver_eq_zero fun _ _ => rfl

/-- **C57** is false for networks without temporal links: the next slice adds its logarithm to the lowest number that marks impossible data
(`src/nip.c:1274-1280`), and no message tells later slices of the impossibility. -/
theorem C57_no_interface_refuted : ¬ ∀ (ptr : Nat) (f : NetFile ℚ), f.Valid → f.Temporal → ∀ g : Logs ℚ, g.Law →
    ∀ ts : TimeSeries, ts.WellFormed → ts.observed.Nodup → (∀ v ∈ ts.observed, v ∈ f.vars) → ReportsLikelihood ptr f [] g (fun _ => true) ts [] := by
  intro h
  obtain ⟨m0, s, m, r1, m1, r2, m2, ll, h1, h2, h3, h4, h5, _⟩ := h 8 timeless timeless_valid
    ⟨fun v _ u hu => (Option.not_mem_none u hu).elim, fun v _ u hu => (Option.not_mem_none u hu).elim, fun v _ w _ u hu => (Option.not_mem_none u hu).elim⟩ exponents exponents_law impossible impossible_wellFormed
    (by decide) (by decide)
  cases h2
  have hc : likelihoods timeless impossible = ok (-1001, -1001) := by decide +kernel
  have hr : likelihoods timeless impossible = ok (ll, ll) := by
    unfold likelihoods
    rw [h1, ok_bind]
    simp only
    rw [h3, ok_bind]
    simp only
    rw [h4, ok_bind]
  have hl := h5 timeless_impossible
  rw [hc] at hr
  have : ll = -1001 := by cases hr; rfl
  rw [this] at hl
  revert hl
  decide +kernel

/-- **C58** Inference over time leaves no trace: when the data are possible, forward inference and forward-backward inference report the same
however often and in whatever order they have been called before (with any series and any options), and whatever else has been done with the model. -/
theorem C58_repeatable (ptr : Nat) {f : NetFile K} (hf : f.Valid) (htm : f.Temporal) {hist : List (Op K)} (hh : ∀ op ∈ hist, op.Valid f.net)
    (calls : List (Call K)) (hcalls : ∀ c ∈ calls, c.ts.WellFormed ∧ c.ts.observed.Nodup ∧ (∀ v ∈ c.ts.observed, v ∈ f.vars) ∧ ∀ v ∈ c.vars, v ∈ f.vars)
    (last : Call K) (hlast : last.ts.WellFormed ∧ last.ts.observed.Nodup ∧ (∀ v ∈ last.ts.observed, v ∈ f.vars) ∧ ∀ v ∈ last.vars, v ∈ f.vars)
    (hpos : f.unrolledTotal (dataSees last.marked last.ts.observed last.ts.data) last.ts.length (fun _ => True) ≠ 0) :
    ∃ m0 s m m1 r r' ll ll' m2 m2', NetFile.parseModel ptr f = ok (some (m0, s)) ∧ m0.performAll hist = ok m ∧ Call.runAll s calls m = ok m1 ∧
      last.run s m1 = ok (r, ll, m2) ∧ last.run s m0 = ok (r', ll', m2') ∧ r = r' := by
  obtain ⟨m0, s, h1, h2, h3, h4, h5, h6⟩ := interface_spec ptr hf htm
  obtain ⟨m, g1, g2, g3⟩ := Model.performAll_spec hist h3 hh
  have step : ∀ (c : Call K) (m : Model K), (c.ts.WellFormed ∧ c.ts.observed.Nodup ∧ (∀ v ∈ c.ts.observed, v ∈ f.vars) ∧ ∀ v ∈ c.vars, v ∈ f.vars) →
      (∃ w, Model.Holds f.net m w) → InterfaceOk f.net m s → ∃ r ll m', c.run s m = ok (r, ll, m') ∧ (∃ w, Model.Holds f.net m' w) ∧ InterfaceOk f.net m' s ∧
        (f.unrolledTotal (dataSees c.marked c.ts.observed c.ts.data) c.ts.length (fun _ => True) ≠ 0 →
          r = (List.range c.ts.length).map (fun t => c.vars.map (f.unrolledPosterior (dataSees c.marked c.ts.observed c.ts.data) (if c.backward then c.ts.length else t + 1) t))) := by
    rintro c m ⟨c1, c2, c3, c4⟩ ⟨w, hw⟩ hi
    unfold Call.run
    by_cases hb : c.backward = true
    · rw [if_pos hb]
      obtain ⟨results, ll, m', e1, e2, e3, e4, e5, _⟩ := smooth_spec hf htm ⟨h5, h6⟩ ⟨c1, c2, c3⟩ c.marked c.lg c4 hw.carries hi
      refine ⟨results, ll, m', e1, e3, e4, fun hne => List.ext_getElem (by simp [e2]) ?_⟩
      intro t ht ht'
      rw [e5 hne t _ (List.getElem?_eq_getElem ht)]
      simp only [List.getElem_map, List.getElem_range, hb, if_true, if_false, Bool.false_eq_true]
      rfl
    · rw [if_neg hb]
      obtain ⟨results, ll, m', e1, e2, e3, e4, e5, _⟩ := forward_spec hf htm ⟨h5, h6⟩ ⟨c1, c2, c3⟩ c.marked c.lg c4 hw hi
      refine ⟨results, ll, m', e1, e3, e4, fun hne => List.ext_getElem (by simp [e2]) ?_⟩
      intro t ht ht'
      rw [e5 t _ (List.getElem?_eq_getElem ht) (total_prefix_le hf _ (by omega) hne)]
      simp only [List.getElem_map, List.getElem_range, hb, if_true, if_false, Bool.false_eq_true]
      rfl
  obtain ⟨m1, a1, a2, a3⟩ : ∃ m1, Call.runAll s calls m = ok m1 ∧ (∃ w, Model.Holds f.net m1 w) ∧ InterfaceOk f.net m1 s := by
    have hi := h4.keep g2.1.skel
    have hw : ∃ w, Model.Holds f.net m w := ⟨_, g3⟩
    clear g1 g2 g3
    induction calls generalizing m with
    | nil => exact ⟨m, rfl, hw, hi⟩
    | cons c cs ih =>
      obtain ⟨r, ll, m', b1, b2, b3, _⟩ := step c m (hcalls c (List.mem_cons_self ..)) hw hi
      obtain ⟨m1, d1, d2⟩ := ih (fun c hc => hcalls c (List.mem_cons_of_mem _ hc)) m' b3 b2
      refine ⟨m1, ?_, d2⟩
      unfold Call.runAll at d1 ⊢
      rw [List.foldlM_cons, b1, ok_bind, ok_bind]
      exact d1
  obtain ⟨r, ll, m2, b1, _, _, b2⟩ := step last m1 hlast a2 a3
  obtain ⟨r', ll', m2', c1, _, _, c2⟩ := step last m0 hlast ⟨_, h3⟩ h4
  exact ⟨m0, s, m, m1, r, r', ll, ll', m2, m2', h1, g1, a1, b1, c1, by rw [b2 hpos, c2 hpos]⟩

/-- The hypotheses of C56 and C57 are met by the hidden Markov model, after a history of use. -/
example : Smooths 8 hmm [.priors false, .observe 3 1] (some exponents) (fun _ => true) sightings [1, 2, 3] ∧
    ReportsLikelihood 8 hmm [.priors false, .observe 3 1] exponents (fun _ => true) sightings [1, 2, 3] := by
  have hh : ∀ op ∈ ([.priors false, .observe 3 1] : List (Op ℚ)), op.Valid hmm.net := by
    intro op hop
    simp only [List.mem_cons, List.not_mem_nil, or_false] at hop
    have h3 : (3 : Nat) ∈ hmm.net.vars := by decide
    rcases hop with rfl | rfl
    · trivial
    · exact h3
  exact ⟨C56_smoothing_partial 8 hmm_valid hmm_temporal hh _ _ sightings_wellFormed (by decide) (by decide) (by decide),
    C57_likelihood_partial 8 hmm_valid hmm_temporal hh exponents_law _ sightings_wellFormed (by decide) (by decide) (by decide)
      (Or.inl ⟨2, by decide, by decide⟩)⟩

/-- The data of the series are possible: otherwise the likelihood reported would be the lowest number. -/
theorem sightings_possible : hmm.unrolledTotal (dataSees (fun _ => true) sightings.observed sightings.data) 3 (fun _ => True) ≠ 0 := by
  intro h0
  obtain ⟨m0, s, m, r1, m1, r2, m2, ll, h1, h2, h3, h4, h5, _⟩ := C57_likelihood_partial (hist := []) (vars := []) 8 hmm_valid hmm_temporal (by simp)
    exponents_law (fun _ => true) sightings_wellFormed (by decide) (by decide) (by simp) (Or.inl ⟨2, by decide, by decide⟩)
  cases h2
  have hr : likelihoods hmm sightings = ok (ll, ll) := by
    unfold likelihoods
    rw [h1, ok_bind]
    simp only
    rw [h3, ok_bind]
    simp only
    rw [h4, ok_bind]
  rw [h5 h0] at hr
  revert hr
  decide +kernel

/-- The hypotheses of C58 are met by a sequence of calls, one of them with impossible data. -/
example : ∃ m0 s m m1 r r' ll ll' m2 m2', NetFile.parseModel 8 hmm = ok (some (m0, s)) ∧ m0.performAll [.priors true, .observe 1 0] = ok m ∧
    Call.runAll s [⟨true, none, fun _ => true, sightings, [1]⟩, ⟨false, some exponents, fun _ => true, { sightings with data := [[5], [1], [0]] }, []⟩] m = ok m1 ∧
    Call.run ⟨true, none, fun _ => true, sightings, [1, 2]⟩ s m1 = ok (r, ll, m2) ∧
    Call.run ⟨true, none, fun _ => true, sightings, [1, 2]⟩ s m0 = ok (r', ll', m2') ∧ r = r' :=
  C58_repeatable 8 hmm_valid hmm_temporal (by
      intro op hop
      simp only [List.mem_cons, List.not_mem_nil, or_false] at hop
      have h1 : (1 : Nat) ∈ hmm.net.vars := by decide
      rcases hop with rfl | rfl
      · trivial
      · exact h1) _ (by
      intro c hc
      simp only [List.mem_cons, List.not_mem_nil, or_false] at hc
      rcases hc with rfl | rfl
      · exact ⟨sightings_wellFormed, by decide, by decide, by decide⟩
      · exact ⟨⟨rfl, rfl, rfl, by decide⟩, by decide, by decide, by decide⟩) _ ⟨sightings_wellFormed, by decide, by decide, by decide⟩ sightings_possible

/-- What is computed: smoothing differs from filtering in the first step and agrees with it in the last. -/
example : (smoothed hmm sightings [1] >>= fun r => ok (r.drop 2)) = (filtered hmm sightings [1] >>= fun r => ok (r.drop 2)) ∧
    (smoothed hmm sightings [1] >>= fun r => ok (r.take 1)) ≠ (filtered hmm sightings [1] >>= fun r => ok (r.take 1)) := by decide +kernel

end Props
end Nip
