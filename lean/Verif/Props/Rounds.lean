import Verif.EmLearn
import Verif.Props.Expect

/-!
# Property C60: learning is the iteration of expectation and maximisation

The counts of each round, the networks made of them and the likelihood of the data are in `Verif/Spec/Learn.lean` (`NetFile.learnRounds`,
`NetFile.learnedNet`, `NetFile.score`); when learning stops is said by `verdict`.
-/

namespace Nip

open Res Spec

set_option linter.unusedSectionVars false

variable {K : Type} [Field K] [LinearOrder K] [IsStrictOrderedRing K]

namespace Props

/-- A model is one of the network `f`: after a reset, whatever is told it, posterior probabilities are those of `f`. -/
def Answers (f : NetFile K) (m : Model K) : Prop :=
  ∀ later asks : List (Op K), (∀ op ∈ later, op.Valid f.net) → (∀ op ∈ asks, op.Valid f.net) → (∀ op ∈ asks, op.IsQuestion) → ∀ v ∈ f.vars,
    ∃ m2 r m3, m.performAll (.reset :: later ++ .propagate :: asks) = ok m2 ∧ m2.getProbability v = ok (some r, m3) ∧ r.length = f.card v ∧
      (totalWeight f.net ((World.fresh f.net).after f.net later) ≠ 0 → r.sum = 1 ∧
        ∀ i, i < f.card v → r[i]? = some (stateWeight f.net ((World.fresh f.net).after f.net later) v i /
          totalWeight f.net ((World.fresh f.net).after f.net later)))

theorem answers_of {f : NetFile K} (hf : f.Valid) {m : Model K} {w : World K} {T : Asg → K} (h : Model.Carries f.net m w T) : Answers f m := by
  intro later asks hl ha hq v hv
  obtain ⟨r1, _, r3⟩ := Model.reset_spec h.sound (fun v hv => by rw [(h.told.lik v hv).1]; exact (h.told.lik v hv).2.1)
  obtain ⟨m2, k1, _, k2⟩ := Model.performAll_spec later r3 hl
  obtain ⟨m3, j1, _, j3, j4, _⟩ := Model.makeConsistent_spec k2
  obtain ⟨m4, i1, _, i3, i4⟩ := Model.questions_spec asks j3 ha hq
  obtain ⟨r, m5, q1, q2, q3, q4, _⟩ := getProbability_bayes (net_local hf) i3 (Model.Agrees_bare i4 j4) (v := v) hv
  refine ⟨m4, r, m5, ?_, q1, q2, q4⟩
  rw [List.cons_append]
  unfold Model.performAll
  rw [List.foldlM_cons]
  show (m.reset).bind _ = _
  rw [r1]
  show Model.performAll _ (later ++ _) = _
  rw [performAll_append, k1]
  show (List.foldlM Model.perform m2 (Op.propagate :: asks)) = _
  rw [List.foldlM_cons]
  show (m2.makeConsistent).bind _ = _
  rw [j1]
  exact i1

/-- The rounds of learning.  From some counts that meet a condition, the rounds go on until the verdict on round `k`.  The
learning curve has the log likelihoods of the data in the networks of the rounds (not that of the last, if the data are impossible in it), the counts
at the end are those of the specification, and the model is one of the network of the last maximisation. -/
def LearnsFrom (Start : (Nat → List Nat → K) → Prop) (ptr : Nat) (f : NetFile K) (hist : List (Op K)) (g : Logs K) (marked : Nat → Bool)
    (series : List TimeSeries) (rand : Option (Nat → Nat → K)) (maxIterations : Int) (threshold : K) (fuel : Nat) : Prop :=
  let data : Evidence := series.map (fun ts => (ts.length, dataSees marked ts.observed ts.data))
  ∃ m0 s m R start k, NetFile.parseModel ptr f = ok (some (m0, s)) ∧ m0.performAll hist = ok m ∧
    emLearn g s marked series rand maxIterations threshold fuel m = ok R ∧
    (∀ v cell, 0 ≤ start v cell) ∧ Start start ∧
    (∀ j, j < k → verdict g.lowest ((((series.map (fun ts => ts.length)).sum : Nat) : K) * threshold) maxIterations
      (fun j => (f.learnedNet data start j).Explains data) (fun j => (f.learnedNet data start j).score g.log data) j = none) ∧
    verdict g.lowest ((((series.map (fun ts => ts.length)).sum : Nat) : K) * threshold) maxIterations
      (fun j => (f.learnedNet data start j).Explains data) (fun j => (f.learnedNet data start j).score g.log data) k = some (R.code, R.criterion) ∧
    Answers (f.learnedNet data start k) R.model ∧
    ((f.learnedNet data start k).Explains data → R.curve = (List.range (k + 1)).map (fun j => (f.learnedNet data start j).score g.log data) ∧
      ∀ v ∈ f.vars, ∀ x, Legal f.card f.vars x → countsIn f R.params v (f.cell v x) = f.learnRounds data start (k + 1) v (f.cell v x)) ∧
    (¬ (f.learnedNet data start k).Explains data → R.curve = (List.range k).map (fun j => (f.learnedNet data start j).score g.log data))

/-- The full claim of C60: the rounds, from some counts (the numbers drawn, if the start is random). -/
def Learns (ptr : Nat) (f : NetFile K) (hist : List (Op K)) (g : Logs K) (marked : Nat → Bool) (series : List TimeSeries) (rand : Option (Nat → Nat → K))
    (maxIterations : Int) (threshold : K) (fuel : Nat) : Prop :=
  LearnsFrom (fun start => ∀ r, rand = some r → start = countsIn f (f.drawn r)) ptr f hist g marked series rand maxIterations threshold fuel

/-- The rounds, from whatever the first steps of learning leave. -/
theorem rounds_from (ptr : Nat) {f : NetFile K} (hf : f.Valid) (htm : f.Temporal) {hist : List (Op K)} (hh : ∀ op ∈ hist, op.Valid f.net)
    {g : Logs K} (hg : g.Law) (hg1 : ∀ a, 0 < a → a ≤ 1 → g.log a ≤ 0) (marked : Nat → Bool) {series : List TimeSeries}
    (hser : ∀ ts ∈ series, ts.WellFormed ∧ ts.observed.Nodup ∧ ∀ v ∈ ts.observed, v ∈ f.vars) {rand : Option (Nat → Nat → K)}
    (maxIterations : Int) (threshold : K) {fuel : Nat} (hfuel : max 3 maxIterations.toNat ≤ fuel) {Start : (Nat → List Nat → K) → Prop}
    (hstart : ∀ m w, NetFile.runFile ptr f hist = ok m → Model.Holds f.net m w → (∀ v, (m.var v).parents = f.givens v) →
      ∃ ps m1, (match rand with
      | some r => ok (some (randomParameters r (f.drawn (fun _ _ => 1))), m)
      | none => presentParameters (f.drawn (fun _ _ => 1)) m) = ok (some ps, m1) ∧ Model.Same m m1 ∧ (∃ w1, Model.Holds f.net m1 w1) ∧ CountTables f ps ∧
        Start (countsIn f ps)) :
    LearnsFrom Start ptr f hist g marked series rand maxIterations threshold fuel := by
  obtain ⟨m0, s, h1, h2, h3, h4, h5, h6⟩ := interface_spec ptr hf htm
  obtain ⟨m, g1, g2, g3⟩ := Model.performAll_spec hist h3 hh
  obtain ⟨mb, b1, b2, b3, _⟩ := build_spec ptr hf
  have hmb : mb = m0 := by
    unfold NetFile.parseModel at h1
    rw [b1, ok_bind] at h1
    simp only at h1
    cases e : NetFile.interface f mb with
    | ub => rw [e] at h1; cases h1
    | ok q => rw [e, ok_bind] at h1; cases h1; rfl
  have hpar : ∀ v, (m.var v).parents = f.givens v := by
    intro v
    rw [g2.1.parents, ← hmb, (b3 v).1, givens_eq]
  have hi := h4.keep g2.1.skel
  have habout : ∀ ts ∈ series, About f ts := fun ts hts => ⟨(hser ts hts).1, (hser ts hts).2.1, (hser ts hts).2.2⟩
  have hrun : NetFile.runFile ptr f hist = ok m := by
    unfold NetFile.runFile
    rw [b1, ok_bind, hmb]
    exact g1
  obtain ⟨ps, m1, e1, e2, ⟨w1, e3⟩, e4, e5⟩ := hstart m _ hrun g3 hpar
  obtain ⟨R, k, w', T', _, k1, k2, k3, k4, k5, k6⟩ := learnLoop_spec hf htm ⟨h5, h6⟩ habout marked hg hg1 (series.map (fun ts => ts.length)).sum maxIterations
    threshold (countsIn f ps) rfl fuel 0 g.lowest ps m1 w1 _ f (Or.inl rfl) e3.carries (hi.keep e2.skel) (fun v => (e2.parents v).trans (hpar v)) e4
    (fun v _ cell _ => rfl) rfl (by omega) (by omega)
  refine ⟨m0, s, m, R, countsIn f ps, k, h1, g1, ?_, fun v cell => countsIn_nonneg e4 v cell, e5, fun j hj => k2 j (Nat.zero_le _) hj, k3,
    answers_of k4.1 k4.2.1, ?_, k6⟩
  · unfold emLearn
    rw [newParameters_spec hf g3.sound hpar, ok_bind]
    cases rand with
    | some r =>
      simp only at e1 ⊢
      rw [e1, ok_bind]
      exact k1
    | none =>
      simp only at e1 ⊢
      rw [e1, ok_bind]
      exact k1
  · intro h
    obtain ⟨a, _, b⟩ := k5 h
    exact ⟨a, fun v hv x hx => b v hv _ (cell_inRange hf hv hx)⟩

/-- **C60**, for files whose temporal links make sense, and enough fuel for the largest number of rounds.  What is missing: as for C53, the condition
on temporal links cannot be dropped (`C60_shared_next_refuted`; for a single expectation step see also `C59_unlinked_refuted`). -/
theorem C60_rounds_partial (ptr : Nat) {f : NetFile K} (hf : f.Valid) (htm : f.Temporal) {hist : List (Op K)} (hh : ∀ op ∈ hist, op.Valid f.net)
    {g : Logs K} (hg : g.Law) (hg1 : ∀ a, 0 < a → a ≤ 1 → g.log a ≤ 0) (marked : Nat → Bool) {series : List TimeSeries}
    (hser : ∀ ts ∈ series, ts.WellFormed ∧ ts.observed.Nodup ∧ ∀ v ∈ ts.observed, v ∈ f.vars) {rand : Option (Nat → Nat → K)}
    (hrand : ∀ r, rand = some r → ∀ i j, 0 ≤ r i j) (maxIterations : Int) (threshold : K) {fuel : Nat} (hfuel : max 3 maxIterations.toNat ≤ fuel) :
    Learns ptr f hist g marked series rand maxIterations threshold fuel := by
  refine rounds_from ptr hf htm hh hg hg1 marked hser maxIterations threshold hfuel ?_
  intro m w _ g3 hpar
  cases rand with
  | some r =>
    refine ⟨f.drawn r, m, by simp only [random_drawn], Model.Same.refl m, ⟨_, g3⟩, drawn_counts hf (hrand r rfl), ?_⟩
    intro r' e
    cases e
    rfl
  | none =>
    obtain ⟨ps, m1, k1, k2, k3, k4, _⟩ := presentParameters_spec hf g3 hpar (drawn_counts hf (num := fun _ _ => 1) (fun _ _ => zero_le_one))
    exact ⟨ps, m1, k1, k2, ⟨_, k3⟩, k4, fun r e => by cases e⟩

/-- **C60** is false if two variables may have the same successor: no model is made (see C53). -/
theorem C60_shared_next_refuted : ¬ ∀ (ptr : Nat) (f : NetFile ℚ), f.Valid → (∀ v ∈ f.vars, ∀ u ∈ f.next v, ∃ q ∈ f.pots, v ∈ q.parents) →
    (∀ v ∈ f.vars, ∀ u ∈ f.next v, u ∈ f.vars ∧ f.card u = f.card v) → ∀ g : Logs ℚ, g.Law → (∀ a, 0 < a → a ≤ 1 → g.log a ≤ 0) →
      ∀ series : List TimeSeries, (∀ ts ∈ series, ts.WellFormed ∧ ts.observed.Nodup ∧ ∀ v ∈ ts.observed, v ∈ f.vars) →
        Learns ptr f [] g (fun _ => true) series (some (fun _ _ => 1)) 3 0 3 := by
  intro h
  refine C53_shared_next_refuted ?_
  intro ptr f h1 h2 h3 hub
  obtain ⟨m0, s, m, R, start, k, e, _⟩ := h ptr f h1 h2 h3 noLogs (by simp [Logs.Law, noLogs]) (fun _ _ _ => le_refl _) [] (by simp)
  rw [hub] at e
  cases e

/-- The hypotheses of C60 are met by the hidden Markov model with real numbers, natural logarithms, two series, a history of use, a random start, at
most seven rounds and a positive threshold; and by a start from the model. -/
example : Learns 8 (castFile ℝ hmm) [.priors false, .observe 3 1] naturalLogs (fun _ => true) [sightings, sightings]
      (some (fun i j => (i : ℝ) + j)) 7 (1 / 10) 7 ∧
    Learns 8 (castFile ℝ hmm) [.priors false, .observe 3 1] naturalLogs (fun _ => true) [sightings, sightings] none 7 (1 / 10) 7 := by
  have hh : ∀ op ∈ [Op.priors false, .observe 3 1], op.Valid (castFile ℝ hmm).net := by
    intro op hop
    simp only [List.mem_cons, List.not_mem_nil, or_false] at hop
    rcases hop with rfl | rfl
    · trivial
    · show 3 ∈ hmm.vars; decide
  have hs : ∀ ts ∈ [sightings, sightings], ts.WellFormed ∧ ts.observed.Nodup ∧ ∀ v ∈ ts.observed, v ∈ (castFile ℝ hmm).vars := by
    intro ts hts
    have : ts = sightings := by simpa using hts
    subst this
    exact ⟨sightings_wellFormed, by decide, show ∀ v ∈ sightings.observed, v ∈ hmm.vars by decide⟩
  refine ⟨C60_rounds_partial 8 (cast_valid ℝ hmm_valid) (cast_temporal ℝ hmm_temporal) hh naturalLogs_law naturalLogs_sane _ hs ?_ _ _ (by decide),
    C60_rounds_partial 8 (cast_valid ℝ hmm_valid) (cast_temporal ℝ hmm_temporal) hh naturalLogs_law naturalLogs_sane _ hs (by simp) _ _ (by decide)⟩
  intro r hr i j
  cases hr
  positivity

/-- Three rounds of learning, computed with logarithms that are all zero: the code, the criterion, the learning curve and the counts. -/
example : (do
    let r ← NetFile.parseModel 8 hmm
    match r with
    | none => ub
    | some (m, s) => do
      let R ← emLearn noLogs s (fun _ => true) [silence, silence] (some (fun _ _ => 1)) 7 0 7 m
      ok (R.code, R.criterion, R.curve, R.params.map (fun p => p.data))) =
    ok (0, some .delta, [0, 0, 0], [[2, 2, 2, 2], [2, 2], [2, 2, 2, 2]]) := by decide +kernel

end Props

end Nip
