import Verif.Ascend
import Verif.Props.Rounds

/-!
# Property C62: learning never makes the data less likely
-/

namespace Nip

open Res Spec

set_option linter.unusedSectionVars false

variable {K : Type} [Field K] [LinearOrder K] [IsStrictOrderedRing K]

/-- the learning curve of a run that ends with success -/
theorem learnLoop_chain (g : Logs K) (s : Interface) (marked : Nat → Bool) (series : List TimeSeries) (steps : Nat) (maxIterations : Int) (threshold : K) :
    ∀ (fuel i : Nat) (old : K) (curve : List K) (params : List (Potential K)) (m : Model K) (R : Learned K),
      learnLoop g s marked series steps maxIterations threshold fuel i old curve params m = ok R → R.code = 0 →
      (∀ a ∈ curve.getLast?, a = old) → curve.IsChain (fun a b => a ≤ b + (steps : K) * threshold) →
      R.curve.IsChain (fun a b => a ≤ b + (steps : K) * threshold) := by
  intro fuel
  induction fuel with
  | zero => intro i old curve params m R h; cases h
  | succ fuel ih =>
    intro i old curve params m R h h0 hl hc
    unfold learnLoop at h
    cases e1 : mStep params m with
    | ub => rw [e1] at h; cases h
    | ok r1 =>
      obtain ⟨c1, p1, m1⟩ := r1
      rw [e1, ok_bind] at h
      simp only at h
      by_cases h1 : c1 ≠ 0
      · rw [if_pos h1] at h; cases h; exact absurd h0 h1
      rw [if_neg h1] at h
      cases e2 : eSteps g s marked series (p1.map (fun p => p.uniform 1)) m1 with
      | ub => rw [e2] at h; cases h
      | ok r2 =>
        obtain ⟨c2, p2, ll, m2⟩ := r2
        rw [e2, ok_bind] at h
        simp only at h
        by_cases h2 : c2 ≠ 0
        · rw [if_pos h2] at h; cases h; exact absurd h0 h2
        rw [if_neg h2] at h
        by_cases h3 : old > ll + (steps : K) * threshold ∨ ll > 0
        · rw [if_pos h3] at h; cases h; exact absurd (show NIP_ERROR_BAD_LUCK = 0 from h0) (by decide)
        rw [if_neg h3] at h
        have hle : old ≤ ll + (steps : K) * threshold := not_lt.mp (fun h => h3 (Or.inl h))
        have hc' : (curve ++ [ll]).IsChain (fun a b => a ≤ b + (steps : K) * threshold) := by
          rw [List.isChain_append]
          refine ⟨hc, by simp, ?_⟩
          intro a ha b hb
          simp only [List.head?_cons, Option.mem_some_iff] at hb
          rw [hl a ha, ← hb]
          exact hle
        have hl' : ∀ a ∈ (curve ++ [ll]).getLast?, a = ll := by simp
        split_ifs at h
        · cases h; exact hc'
        · exact ih _ _ _ _ _ R h h0 hl' hc'
        · cases h; exact hc'
        · exact ih _ _ _ _ _ R h h0 hl' hc'

namespace Props

/-- The full claim of C62, for a model made from the file `f`: the learning curve never falls. -/
def NeverWorse (ptr : Nat) (f : NetFile K) (hist : List (Op K)) (g : Logs K) (marked : Nat → Bool) (series : List TimeSeries) (rand : Option (Nat → Nat → K))
    (maxIterations : Int) (threshold : K) (fuel : Nat) : Prop :=
  ∀ m0 s m R, NetFile.parseModel ptr f = ok (some (m0, s)) → m0.performAll hist = ok m → emLearn g s marked series rand maxIterations threshold fuel m = ok R →
    R.curve.IsChain (fun a b => a ≤ b)

/-- **C62**, what the code checks: if learning succeeds, the log likelihood falls by no more than the threshold times the number of time steps from one
round to the next.  This holds for every model, whatever its state.  What is missing: rounds that make the data less likely, see
`C62_pseudo_counts_refuted`. -/
theorem C62_drop_partial (g : Logs K) (s : Interface) (marked : Nat → Bool) (series : List TimeSeries) (rand : Option (Nat → Nat → K)) (maxIterations : Int)
    (threshold : K) (fuel : Nat) (m : Model K) {R : Learned K} (h : emLearn g s marked series rand maxIterations threshold fuel m = ok R) (h0 : R.code = 0) :
    R.curve.IsChain (fun a b => a ≤ b + (((series.map (fun ts => ts.length)).sum : Nat) : K) * threshold) := by
  unfold emLearn at h
  cases e1 : newParameters m with
  | ub => rw [e1] at h; cases h
  | ok ps =>
    rw [e1, ok_bind] at h
    have key : ∀ (ps : Option (List (Potential K))) (m : Model K), (match ps with
        | none => ok { code := ENOMEM, criterion := none, curve := [], params := [], model := m }
        | some params => learnLoop g s marked series ((series.map (fun ts => ts.length)).sum) maxIterations threshold fuel 0 g.lowest [] params m) = ok R →
        R.curve.IsChain (fun a b => a ≤ b + (((series.map (fun ts => ts.length)).sum : Nat) : K) * threshold) := by
      intro ps m hr
      cases ps with
      | none => cases hr; exact absurd (show ENOMEM = 0 from h0) (by decide)
      | some params => exact learnLoop_chain g s marked series _ maxIterations threshold fuel 0 g.lowest [] params m R hr h0 (by simp) (by simp)
    cases rand with
    | some r =>
      simp only [ok_bind] at h
      exact key (some _) _ h
    | none =>
      simp only at h
      cases e2 : presentParameters ps m with
      | ub => rw [e2] at h; cases h
      | ok r2 =>
        rw [e2, ok_bind] at h
        exact key _ _ h

/-- so with the threshold zero the learning curve of a successful run does not fall -/
theorem C62_zero_threshold_partial (g : Logs K) (s : Interface) (marked : Nat → Bool) (series : List TimeSeries) (rand : Option (Nat → Nat → K))
    (maxIterations : Int) (fuel : Nat) (m : Model K) {R : Learned K} (h : emLearn g s marked series rand maxIterations 0 fuel m = ok R) (h0 : R.code = 0) :
    R.curve.IsChain (fun a b => a ≤ b) := by
  simpa using C62_drop_partial g s marked series rand maxIterations 0 fuel m h h0

/-- One variable with two states. -/
noncomputable def coin : NetFile ℝ where
  vars := [1]
  card := fun _ => 2
  next := fun _ => none
  pots := [{ child := 1, parents := [], table := { card := [2], data := [1 / 2, 1 / 2] } }]

theorem coin_valid : coin.Valid where
  sorted := by simp [coin]
  ids := by simp [coin]
  states := fun _ _ => Nat.zero_lt_two
  tables := by simp [coin]
  child := by simp [coin]
  parents := by simp [coin]
  distinct := by simp [coin]
  shape := by simp [coin, NetFile.family]
  nonneg := by simp [coin]

theorem coin_temporal : coin.Temporal where
  used := by simp [coin]
  states := by simp [coin]
  distinct := by simp [coin]

/-- One observation. -/
def heads : TimeSeries where
  numVars := 1
  numHidden := 0
  hidden := []
  numObserved := 1
  observed := [1]
  length := 1
  data := [[0]]

theorem coin_prior (c : Nat → List Nat → ℝ) : (coin.relearn c).net.prior 1 = [c 1 [0] / (c 1 [0] + c 1 [1]), c 1 [1] / (c 1 [0] + c 1 [1])] := by
  rw [relearn_prior coin_valid c (by simp [coin]) (by simp [coin, NetFile.givens])]
  simp [coin, estimate, List.range_succ, Finset.sum_range_succ]

theorem coin_total {c : Nat → List Nat → ℝ} (h0 : 0 < c 1 [0]) (h1 : 0 < c 1 [1]) (seen : Nat → Nat → Int) (P : (Nat → Nat → Nat) → Prop) [DecidablePred P] :
    (coin.relearn c).unrolledTotal seen 1 P = 
      (if P (Function.update (fun _ _ => 0) 0 (Function.update (fun _ => 0) 1 0)) then c 1 [0] / (c 1 [0] + c 1 [1]) * (vision (K := ℝ) (fun _ => 2) (seen 0) 1).getD 0 0 else 0) +
      (if P (Function.update (fun _ _ => 0) 0 (Function.update (fun _ => 0) 1 1)) then c 1 [1] / (c 1 [0] + c 1 [1]) * (vision (K := ℝ) (fun _ => 2) (seen 0) 1).getD 1 0 else 0) := by
  have hr : (coin.relearn c).net.roots = [1] := by
    rw [relearn_roots coin_valid]; simp [coin, NetFile.net]
  have hu : Usable ((coin.relearn c).net.card 1) ((coin.relearn c).net.prior 1) := by
    rw [coin_prior]
    exact ⟨0, Nat.zero_lt_two, by simp; positivity⟩
  have ht : ∀ x, (coin.relearn c).net.tables x = 1 := by
    intro x
    show (List.map _ (List.filter _ [coin.learnedTable c 1])).prod = 1
    simp [NetFile.learnedTable, coin, NetFile.givens]
  have hw : ∀ x, (coin.relearn c).sliceWeight True (seen 0) x = [c 1 [0] / (c 1 [0] + c 1 [1]), c 1 [1] / (c 1 [0] + c 1 [1])].getD (x 1) 0 * (vision (K := ℝ) (fun _ => 2) (seen 0) 1).getD (x 1) 0 := by
    intro x
    unfold NetFile.sliceWeight weightOf
    rw [hr, ht]
    have hv : (coin.relearn c).net.vars = [1] := rfl
    rw [hv]
    simp only [List.map_cons, List.map_nil, List.prod_singleton]
    rw [if_pos ⟨Or.inl trivial, hu⟩, coin_prior, one_mul]
    rfl
  unfold NetFile.unrolledTotal
  have hc : (coin.relearn c).card = fun _ => 2 := rfl
  have hv : (coin.relearn c).vars = [1] := rfl
  rw [hc, hv]
  have : ∀ X, (coin.relearn c).unrolledWeight seen 1 X = (coin.relearn c).sliceWeight True (seen 0) (X 0) := by
    intro X
    unfold NetFile.unrolledWeight
    simp
  simp [sumSlices, sumOver, List.range_succ, Finset.sum_range_succ, this, hw]

theorem coin_counts {c : Nat → List Nat → ℝ} (h0 : 0 < c 1 [0]) (h1 : 0 < c 1 [1]) :
    coin.learnRound [(1, dataSees (fun _ => true) [1] [[0]])] c 1 [0] = 2 ∧ coin.learnRound [(1, dataSees (fun _ => true) [1] [[0]])] c 1 [1] = 1 := by
  have hp : c 1 [0] / (c 1 [0] + c 1 [1]) ≠ 0 := by positivity
  have hg : (coin.relearn c).givens 1 = [] := by rw [relearn_givens coin_valid]; simp [coin, NetFile.givens]
  have hn : (coin.relearn c).next 1 = none := rfl
  constructor
  · simp [NetFile.learnRound, NetFile.expectedCount, coin_total h0 h1, NetFile.cell, hg, hn, dataSees, rowSees, vision, indicator, List.range_succ, hp]
    norm_num
  · simp [NetFile.learnRound, NetFile.expectedCount, coin_total h0 h1, NetFile.cell, hg, hn, dataSees, rowSees, vision, indicator, List.range_succ]

theorem coin_score {c : Nat → List Nat → ℝ} (h0 : 0 < c 1 [0]) (h1 : 0 < c 1 [1]) :
    (coin.relearn c).Explains [(1, dataSees (fun _ => true) [1] [[0]])] ∧
    (coin.relearn c).score Real.log [(1, dataSees (fun _ => true) [1] [[0]])] = Real.log (c 1 [0] / (c 1 [0] + c 1 [1])) := by
  have hp : c 1 [0] / (c 1 [0] + c 1 [1]) ≠ 0 := by positivity
  have hs : c 1 [0] + c 1 [1] ≠ 0 := by positivity
  constructor
  · simp [NetFile.Explains, coin_total h0 h1, dataSees, rowSees, vision, indicator, List.range_succ, hp]
  · simp [NetFile.score, NetFile.evidenceProb, coin_total h0 h1, dataSees, rowSees, vision, indicator, List.range_succ, hide]
    rw [← add_div, div_self hs, div_one]

theorem heads_wellFormed : heads.WellFormed where
  observed := rfl
  hidden := rfl
  rows := rfl
  row := by decide

/-- **C62** is false: because of the pseudo counts, one round of learning from a single observation changes the probability of what is observed from
`9/10` to `2/3`. -/
theorem C62_pseudo_counts_refuted : ¬ ∀ (f : NetFile ℝ), f.Valid → f.Temporal → ∀ series : List TimeSeries,
    (∀ ts ∈ series, ts.WellFormed ∧ ts.observed.Nodup ∧ ∀ v ∈ ts.observed, v ∈ f.vars) → ∀ r : Nat → Nat → ℝ, (∀ i j, 0 ≤ r i j) →
      NeverWorse 8 f [] naturalLogs (fun _ => true) series (some r) 7 0 7 := by
  intro h
  have hs : ∀ ts ∈ [heads], ts.WellFormed ∧ ts.observed.Nodup ∧ ∀ v ∈ ts.observed, v ∈ coin.vars := by
    intro ts hts
    rw [List.mem_singleton.mp hts]
    exact ⟨heads_wellFormed, by decide, by simp [heads, coin]⟩
  obtain ⟨r, hr⟩ : ∃ r : Nat → Nat → ℝ, r = fun _ j => if j = 0 then 9 else 1 := ⟨_, rfl⟩
  have hr0 : ∀ i j, 0 ≤ r i j := by intro i j; rw [hr]; simp only; split_ifs <;> norm_num
  obtain ⟨m0, s, m, R, start, k, e1, e2, e3, _, e5, e6, e7, _, e9, e10⟩ := C60_rounds_partial 8 coin_valid coin_temporal (hist := []) (by simp) naturalLogs_law
    naturalLogs_sane (fun _ => true) hs (rand := some r) (by rintro _ ⟨⟩; exact hr0) 7 0 (fuel := 7) (by decide)
  have hc := h coin coin_valid coin_temporal [heads] hs r hr0 m0 s m R e1 e2 e3
  have hst : start 1 [0] = 9 ∧ start 1 [1] = 1 := by
    rw [e5 r rfl, hr]
    constructor <;> simp [countsIn, NetFile.drawn, coin, NetFile.givens, List.range_succ, Potential.at', cellOf, position]
  have hdata : [heads].map (fun ts => (ts.length, dataSees (fun _ => true) ts.observed ts.data)) = [(1, dataSees (fun _ => true) [1] [[0]])] := rfl
  rw [hdata] at e6 e7 e9 e10
  obtain ⟨data, hd⟩ : ∃ d : Evidence, d = [(1, dataSees (fun _ => true) [1] [[0]])] := ⟨_, rfl⟩
  have hrounds : ∀ j, coin.learnRounds data start (j + 1) 1 [0] = 2 ∧ coin.learnRounds data start (j + 1) 1 [1] = 1 := by
    intro j
    induction j with
    | zero => rw [hd]; exact coin_counts (by show 0 < start 1 [0]; rw [hst.1]; norm_num) (by show 0 < start 1 [1]; rw [hst.2]; norm_num)
    | succ j ih => rw [hd] at ih ⊢; exact coin_counts (by rw [ih.1]; norm_num) (by rw [ih.2]; norm_num)
  have hpos : ∀ j, 0 < coin.learnRounds data start j 1 [0] ∧ 0 < coin.learnRounds data start j 1 [1] := by
    intro j
    cases j with
    | zero => exact ⟨by show 0 < start 1 [0]; rw [hst.1]; norm_num, by show 0 < start 1 [1]; rw [hst.2]; norm_num⟩
    | succ j => rw [(hrounds j).1, (hrounds j).2]; norm_num
  rw [← hd] at e6 e7 e9 e10
  have hex : ∀ j, (coin.learnedNet data start j).Explains data := by
    intro j
    have := (coin_score (hpos j).1 (hpos j).2).1
    rw [← hd] at this
    exact this
  have hsc : ∀ j, (coin.learnedNet data start j).score naturalLogs.log data = Real.log (coin.learnRounds data start j 1 [0] /
      (coin.learnRounds data start j 1 [0] + coin.learnRounds data start j 1 [1])) := by
    intro j
    have := (coin_score (hpos j).1 (hpos j).2).2
    rw [← hd] at this
    exact this
  have hs0 : (coin.learnedNet data start 0).score naturalLogs.log data = Real.log (9 / 10) := by
    rw [hsc]
    show Real.log (start 1 [0] / (start 1 [0] + start 1 [1])) = _
    rw [hst.1, hst.2]; norm_num
  have hs1 : (coin.learnedNet data start 1).score naturalLogs.log data = Real.log (2 / 3) := by
    rw [hsc, (hrounds 0).1, (hrounds 0).2]; norm_num
  obtain ⟨c1, _⟩ := e9 (hex k)
  have hk : k ≠ 0 := by
    rintro rfl
    unfold verdict at e7
    rw [if_neg (not_not.mpr (hex 0)), if_neg, if_pos (by norm_num)] at e7
    · cases e7
    · beta_reduce
      rw [if_pos rfl, hs0]
      have : Real.log (1 / 2) ≤ Real.log (9 / 10) := Real.log_le_log (by norm_num) (by norm_num)
      have h2 : Real.log (1 / 2) = - Real.log 2 := by rw [one_div, Real.log_inv]
      have h3 : Real.log 2 ≤ 2 - 1 := Real.log_le_sub_one_of_pos (by norm_num)
      show ¬ _ < (-1000 : ℝ)
      rw [mul_zero]
      linarith
  obtain ⟨k', rfl⟩ := Nat.exists_eq_succ_of_ne_zero hk
  rw [c1, List.range_succ_eq_map, List.map_cons, List.map_map, List.range_succ_eq_map, List.map_cons] at hc
  have := (List.isChain_cons_cons.mp hc).1
  simp only [Function.comp_apply] at this
  rw [show Nat.succ 0 = 1 from rfl, hs0, hs1] at this
  have hlt : Real.log (2 / 3) < Real.log (9 / 10) := Real.log_lt_log (by norm_num) (by norm_num)
  linarith

/-- What one round does not lower: the log likelihood plus the logarithms of all the parameters.  For a model made from the file `f`, the learning curve
has the log likelihoods of the data in the networks `f.learnedNet data start j` of the rounds; from each of them to the next (from the second on, or
from the first if the start is random with positive numbers) the sum of the log likelihood and the logarithms of all the numbers in the tables does
not fall. -/
def Ascends (ptr : Nat) (f : NetFile ℝ) (hist : List (Op ℝ)) (marked : Nat → Bool) (series : List TimeSeries) (rand : Option (Nat → Nat → ℝ))
    (maxIterations : Int) (threshold : ℝ) (fuel : Nat) : Prop :=
  let data : Evidence := series.map (fun ts => (ts.length, dataSees marked ts.observed ts.data))
  ∃ m0 s m R start, NetFile.parseModel ptr f = ok (some (m0, s)) ∧ m0.performAll hist = ok m ∧
    emLearn naturalLogs s marked series rand maxIterations threshold fuel m = ok R ∧
    (∀ r, rand = some r → start = countsIn f (f.drawn r)) ∧
    (∀ j a, R.curve[j]? = some a → a = (f.learnedNet data start j).score Real.log data) ∧
    ∀ j a b, R.curve[j]? = some a → R.curve[j + 1]? = some b → (1 ≤ j ∨ ∃ r, rand = some r ∧ ∀ i l, 0 < r i l) →
      a + (f.learnedNet data start j).logParameters Real.log ≤ b + (f.learnedNet data start (j + 1)).logParameters Real.log

/-- **C62**, what learning does improve, for files whose temporal links make sense, whose graph has no directed cycle, and in which the variables that
are determined by the slice before have no parents: the pseudo counts make a round of learning raise the likelihood times the product of all the
parameters (the posterior density of the parameters with a Dirichlet prior, up to a factor) instead of the likelihood.  What is missing: the likelihood
itself, see `C62_pseudo_counts_refuted`. -/
theorem C62_penalised_partial (ptr : Nat) {f : NetFile ℝ} (hf : f.Valid) (htm : f.Temporal) (hac : f.Acyclic)
    (hroot : ∀ v ∈ f.vars, f.next v ≠ none → f.givens v = []) {hist : List (Op ℝ)} (hh : ∀ op ∈ hist, op.Valid f.net) (marked : Nat → Bool)
    {series : List TimeSeries} (hser : ∀ ts ∈ series, ts.WellFormed ∧ ts.observed.Nodup ∧ ∀ v ∈ ts.observed, v ∈ f.vars) {rand : Option (Nat → Nat → ℝ)}
    (hrand : ∀ r, rand = some r → ∀ i j, 0 ≤ r i j) (maxIterations : Int) (threshold : ℝ) {fuel : Nat} (hfuel : max 3 maxIterations.toNat ≤ fuel) :
    Ascends ptr f hist marked series rand maxIterations threshold fuel := by
  obtain ⟨m0, s, m, R, start, k, e1, e2, e3, e4, e5, e6, _, _, e9, e10⟩ := C60_rounds_partial ptr hf htm hh naturalLogs_law naturalLogs_sane marked hser hrand
    maxIterations threshold hfuel
  refine ⟨m0, s, m, R, start, e1, e2, e3, e5, ?_⟩
  obtain ⟨data, hd⟩ : ∃ d : Evidence, d = series.map (fun ts => (ts.length, dataSees marked ts.observed ts.data)) := ⟨_, rfl⟩
  rw [← hd] at e6 e9 e10 ⊢
  have hcurve : ∀ j a, R.curve[j]? = some a → j ≤ k ∧ a = (f.learnedNet data start j).score Real.log data := by
    intro j a ha
    by_cases hex : (f.learnedNet data start k).Explains data
    · rw [(e9 hex).1] at ha
      simp only [List.getElem?_map, Option.map_eq_some_iff, List.getElem?_range] at ha
      obtain ⟨i, h1, rfl⟩ := ha
      have hj : j < k + 1 := by by_contra h; rw [List.getElem?_eq_none (by simpa using h)] at h1; cases h1
      rw [List.getElem?_range hj] at h1
      cases h1
      exact ⟨by omega, rfl⟩
    · rw [e10 hex] at ha
      simp only [List.getElem?_map, Option.map_eq_some_iff, List.getElem?_range] at ha
      obtain ⟨i, h1, rfl⟩ := ha
      have hj : j < k := by by_contra h; rw [List.getElem?_eq_none (by simpa using h)] at h1; cases h1
      rw [List.getElem?_range hj] at h1
      cases h1
      exact ⟨by omega, rfl⟩
  refine ⟨fun j a ha => (hcurve j a ha).2, ?_⟩
  intro j a b ha hb hj
  have hjk : j < k := (hcurve _ _ hb).1
  have hex : (f.learnedNet data start j).Explains data := by
    by_contra h
    have := e6 j hjk
    unfold verdict at this
    rw [if_pos h] at this
    cases this
  rw [(hcurve _ _ ha).2, (hcurve _ _ hb).2]
  obtain ⟨c, hc, hn1, hn2⟩ : ∃ c : Nat → List Nat → ℝ, (∀ v cell, 0 < c v cell) ∧ f.learnedNet data start j = f.relearn c ∧
      f.learnedNet data start (j + 1) = f.relearn (f.learnRound data c) := by
    have hnn : ∀ i v cell, 0 ≤ f.learnRounds data start i v cell := by
      intro i
      induction i with
      | zero => exact e4
      | succ i ih => exact fun v cell => (learnRound_pos hf data ih v cell).le
    cases j with
    | succ j => exact ⟨f.learnRounds data start (j + 1), learnRound_pos hf data (hnn j), rfl, rfl⟩
    | zero =>
      rcases hj with hj | ⟨r, hr, hpos⟩
      · omega
      obtain ⟨c, hc⟩ : ∃ c : Nat → List Nat → ℝ, c = fun v cell => if 0 < start v cell then start v cell else 1 := ⟨_, rfl⟩
      have heq : f.relearn start = f.relearn c := by
        refine relearn_congr hf fun v hv cell hcell => ?_
        have : 0 < start v cell := by
          rw [e5 r hr]
          obtain ⟨i, hi⟩ := List.mem_iff_getElem?.mp hv
          have hp : (f.drawn r)[i]? = some { card := (v :: f.givens v).map f.card, data := (List.range ((v :: f.givens v).map f.card).prod).map (r i) } := by
            unfold NetFile.drawn
            rw [List.getElem?_mapIdx, hi]
            rfl
          rw [countsIn_at hf hi hp]
          unfold Potential.at' cellOf
          have hlt := position_lt hcell
          rw [List.getD_eq_getElem _ _ (by simpa using hlt)]
          simp only [List.getElem_map]
          exact hpos _ _
        rw [hc]
        simp only [if_pos this]
      refine ⟨c, ?_, heq, ?_⟩
      · intro v cell
        rw [hc]
        simp only
        split
        · assumption
        · exact one_pos
      · have : f.learnRound data start = f.learnRound data c := by
          funext v cell
          unfold NetFile.learnRound
          rw [heq]
        show f.relearn (f.learnRound data start) = _
        rw [this]
  rw [hn1] at hex ⊢
  rw [hn2]
  obtain ⟨h1, h2⟩ := round_ascends hf hroot hc hex
  rw [score_eq hf htm hac hroot hc hex, score_eq hf htm hac hroot (learnRound_pos hf data fun v cell => (hc v cell).le) h1]
  exact h2

/-- The hypotheses are met by the hidden Markov model with two series, a history of use and a positive random start. -/
example : Ascends 8 (castFile ℝ hmm) [.priors false, .observe 3 1] (fun _ => true) [sightings, sightings] (some (fun i j => (i : ℝ) + j + 1)) 7 (1 / 10) 7 := by
  have hh : ∀ op ∈ [Op.priors false, .observe 3 1], op.Valid (castFile ℝ hmm).net := by
    intro op hop
    simp only [List.mem_cons, List.not_mem_nil, or_false] at hop
    rcases hop with rfl | rfl
    · trivial
    · show 3 ∈ hmm.vars; decide
  have hs : ∀ ts ∈ [sightings, sightings], ts.WellFormed ∧ ts.observed.Nodup ∧ ∀ v ∈ ts.observed, v ∈ (castFile ℝ hmm).vars := by
    intro ts hts
    have : ts = sightings := by simpa using hts
    subst this
    exact ⟨sightings_wellFormed, by decide, show ∀ v ∈ sightings.observed, v ∈ hmm.vars by decide⟩
  refine C62_penalised_partial 8 (cast_valid ℝ hmm_valid) (cast_temporal ℝ hmm_temporal) ?_ ?_ hh _ hs ?_ _ _ (by decide)
  · refine ⟨fun v => if v = 2 then 0 else if v = 1 then 1 else 2, ?_⟩
    intro q hq
    obtain ⟨q, hq', rfl⟩ := List.mem_map.mp (show q ∈ hmm.pots.map (castParsed ℝ) from hq)
    have h : ∀ q ∈ hmm.pots, ∀ u ∈ q.parents, (if u = 2 then 0 else if u = 1 then 1 else 2) < (if q.child = 2 then 0 else if q.child = 1 then 1 else 2) := by
      decide +kernel
    exact h q hq'
  · intro v hv hn
    have h2 : v = 2 := by
      by_contra h
      exact hn (show (if v = 2 then some 1 else none) = none by rw [if_neg h])
    subst h2
    simp [NetFile.givens, castFile, hmm, castParsed]
  · intro r hr i j
    cases hr
    positivity

/-- A run of learning that succeeds, with a threshold; computed with logarithms that are all zero. -/
example : ∃ m s R, NetFile.parseModel 8 hmm = ok (some (m, s)) ∧ emLearn noLogs s (fun _ => true) [silence, silence] (some (fun _ _ => 1)) 7 (1 / 2) 7 m = ok R ∧
    R.code = 0 ∧ R.curve.length = 3 := by
  have h : (do
      let r ← NetFile.parseModel 8 hmm
      match r with
      | none => ub
      | some (m, s) => do
        let R ← emLearn noLogs s (fun _ => true) [silence, silence] (some (fun _ _ => 1)) 7 (1 / 2) 7 m
        ok (R.code, R.curve.length)) = ok (0, 3) := by decide +kernel
  cases e1 : NetFile.parseModel 8 hmm with
  | ub => rw [e1] at h; cases h
  | ok r =>
    rw [e1, ok_bind] at h
    cases r with
    | none => cases h
    | some q =>
      obtain ⟨m, s⟩ := q
      simp only at h
      cases e2 : emLearn noLogs s (fun _ => true) [silence, silence] (some (fun _ _ => 1)) 7 (1 / 2) 7 m with
      | ub => rw [e2] at h; cases h
      | ok R =>
        rw [e2, ok_bind] at h
        have h' := Res.ok.inj h
        simp only [Prod.mk.injEq] at h'
        exact ⟨m, s, R, rfl, e2, h'.1, h'.2⟩

end Props

end Nip
