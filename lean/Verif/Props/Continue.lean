import Verif.Continue
import Verif.Props.Rounds

/-!
# Property C61: learning that continues starts from the parameters of the model

Normalised tables, graphs without directed cycles and networks with uniform priors are defined in `Verif/Spec/Learn.lean`.
-/

namespace Nip

open Res Spec

set_option linter.unusedSectionVars false

variable {K : Type} [Field K] [LinearOrder K] [IsStrictOrderedRing K]

namespace Props

/-- A model is one of the network `net`, and nothing has been told it: whatever it is told, posterior probabilities are those of `net`. -/
def AnswersAs (net : Net K) (m : Model K) : Prop :=
  ∀ later asks : List (Op K), (∀ op ∈ later, op.Valid net) → (∀ op ∈ asks, op.Valid net) → (∀ op ∈ asks, op.IsQuestion) → ∀ v ∈ net.vars,
    ∃ m2 r m3, m.performAll (later ++ .propagate :: asks) = ok m2 ∧ m2.getProbability v = ok (some r, m3) ∧ r.length = net.card v ∧
      (totalWeight net ((World.fresh net).after net later) ≠ 0 → r.sum = 1 ∧
        ∀ i, i < net.card v → r[i]? = some (stateWeight net ((World.fresh net).after net later) v i /
          totalWeight net ((World.fresh net).after net later)))

theorem answersAs_of {net : Net K} (hn : Local net) {m : Model K} (h : Model.Holds net m (World.fresh net)) : AnswersAs net m := by
  intro later asks hl ha hq v hv
  obtain ⟨m2, k1, _, k2⟩ := Model.performAll_spec later h hl
  obtain ⟨m3, j1, _, j3, j4, _⟩ := Model.makeConsistent_spec k2
  obtain ⟨m4, i1, _, i3, i4⟩ := Model.questions_spec asks j3 ha hq
  obtain ⟨r, m5, q1, q2, q3, q4, _⟩ := getProbability_bayes hn i3 (Model.Agrees_bare i4 j4) (v := v) hv
  refine ⟨m4, r, m5, ?_, q1, q2, q4⟩
  rw [performAll_append, k1]
  show (List.foldlM Model.perform m2 (Op.propagate :: asks)) = _
  rw [List.foldlM_cons]
  show (m2.makeConsistent).bind _ = _
  rw [j1]
  exact i1

/-- The first steps of learning that does not start from random numbers, for a model made from the file `f` and any history of use: the arrays are
made, the parameters are taken from the model, and the M-step leaves a model of the network `net`. -/
def ContinuesAs (net : Net K) (ptr : Nat) (f : NetFile K) (hist : List (Op K)) : Prop :=
  ∃ m ps0 ps m1 ps' m2, NetFile.runFile ptr f hist = ok m ∧ newParameters m = ok ps0 ∧ presentParameters ps0 m = ok (some ps, m1) ∧
    mStep ps m1 = ok (0, ps', m2) ∧ AnswersAs net m2

/-- The full claim of C61: the M-step leaves a model of the network of the file. -/
def Continues (ptr : Nat) (f : NetFile K) (hist : List (Op K)) : Prop := ContinuesAs f.net ptr f hist

/-- **C61**, what is left of it: if the tables are normalised and there is no directed cycle, the conditional probabilities stay as they are, but all
priors are made uniform.  What is missing: the priors, see `C61_priors_refuted`. -/
theorem C61_levelled_partial (ptr : Nat) {f : NetFile K} (hf : f.Valid) (hn : f.Normalised) (ha : f.Acyclic) {hist : List (Op K)}
    (hh : ∀ op ∈ hist, op.Valid f.net) : ContinuesAs f.net.levelled ptr f hist := by
  obtain ⟨m, ps0, ps, m1, ps', m2, h1, h2, h3, h4, h5⟩ := continue_spec ptr hf hn ha hh
  exact ⟨m, ps0, ps, m1, ps', m2, h1, h2, h3, h4, answersAs_of (net := f.net.levelled) ⟨(net_local hf).tables, (net_local hf).rsub, (net_local hf).pos, (net_local hf).nodup⟩ h5⟩

/-- **C61** for networks whose priors are uniform.  What is missing: other priors, see `C61_priors_refuted`. -/
theorem C61_uniform_priors_partial (ptr : Nat) {f : NetFile K} (hf : f.Valid) (hn : f.Normalised) (ha : f.Acyclic)
    (hu : ∀ v ∈ f.net.roots, ∀ a ∈ f.net.prior v, a = 1 / (f.card v : K)) {hist : List (Op K)} (hh : ∀ op ∈ hist, op.Valid f.net) : Continues ptr f hist := by
  obtain ⟨m, ps0, ps, m1, ps', m2, h1, h2, h3, h4, h5⟩ := continue_spec ptr hf hn ha hh
  refine ⟨m, ps0, ps, m1, ps', m2, h1, h2, h3, h4, answersAs_of (net_local hf) (Alike.holds (A := f.net.levelled) ?_ h5)⟩
  refine ⟨rfl, rfl, rfl, rfl, ?_, fun _ => rfl⟩
  intro v hv
  obtain ⟨mb, _, b2, _⟩ := build_spec ptr hf
  have hlen := (b2.sound.prior v hv).2.1
  show List.replicate (f.card v) _ = _
  symm
  rw [List.eq_replicate_iff]
  exact ⟨hlen, hu v hv⟩

/-- The network made of the counts has the tables of the file, and all its priors are uniform. -/
def StartsLevelled (f : NetFile K) (start : Nat → List Nat → K) : Prop :=
  (f.relearn start).net.roots = f.net.roots ∧ (∀ v ∈ f.net.roots, (f.relearn start).net.prior v = List.replicate (f.card v) (1 / (f.card v : K))) ∧
    ∀ x, Legal f.card f.vars x → (f.relearn start).net.tables x = f.net.tables x

/-- **C61** for the whole of learning: the rounds start from the conditional probabilities of the file with uniform priors, so the first value of the
learning curve is the likelihood of the data in that network.  What is missing: the priors, see `C61_priors_refuted`; and, as for C60, temporal links
that do not make sense. -/
theorem C61_learning_partial (ptr : Nat) {f : NetFile K} (hf : f.Valid) (hn : f.Normalised) (ha : f.Acyclic) (htm : f.Temporal) {hist : List (Op K)}
    (hh : ∀ op ∈ hist, op.Valid f.net) {g : Logs K} (hg : g.Law) (hg1 : ∀ a, 0 < a → a ≤ 1 → g.log a ≤ 0) (marked : Nat → Bool)
    {series : List TimeSeries} (hser : ∀ ts ∈ series, ts.WellFormed ∧ ts.observed.Nodup ∧ ∀ v ∈ ts.observed, v ∈ f.vars)
    (maxIterations : Int) (threshold : K) {fuel : Nat} (hfuel : max 3 maxIterations.toNat ≤ fuel) :
    LearnsFrom (StartsLevelled f) ptr f hist g marked series none maxIterations threshold fuel := by
  refine rounds_from ptr hf htm hh hg hg1 marked hser maxIterations threshold hfuel ?_
  intro m w hm g3 hpar
  obtain ⟨m', ps, m1, hm', k1, k2, k3, k4, k5⟩ := continue_start ptr hf hn ha hh
  rw [hm] at hm'
  cases hm'
  refine ⟨ps, m1, k1, k2, ⟨_, k3⟩, k4, k5.roots, ?_, ?_⟩
  · intro v hv
    exact k5.prior v (by rw [k5.roots]; exact hv)
  · intro x hx
    have h1 : ∀ v ∈ f.vars, x v = wrap f.card x v := fun v hv => (Nat.mod_eq_of_lt (hx v hv)).symm
    rw [(net_local (relearn_valid hf (countsIn_nonneg k4))).tables _ _ h1, (net_local hf).tables _ _ h1]
    exact k5.tables x

/-- The hidden Markov model, starting in the second state more often. -/
def biased : NetFile ℚ := { hmm with
  pots := [{ child := 1, parents := [2], table := { card := [2, 2], data := [3 / 4, 1 / 4, 1 / 3, 2 / 3] } },
    { child := 2, parents := [], table := { card := [2], data := [1 / 4, 3 / 4] } },
    { child := 3, parents := [1], table := { card := [2, 2], data := [9 / 10, 1 / 5, 1 / 10, 4 / 5] } }] }

theorem biased_valid : biased.Valid where
  sorted := by decide
  ids := by decide
  states := fun _ _ => Nat.zero_lt_two
  tables := by simp [biased]
  child := by decide +kernel
  parents := by decide +kernel
  distinct := by decide +kernel
  shape := by decide +kernel
  nonneg := by decide +kernel

theorem hmm_normalised : hmm.Normalised := by
  intro q hq x hx
  have h1 : x 1 < 2 := hx 1 (by decide)
  have h2 : x 2 < 2 := hx 2 (by decide)
  simp only [hmm, List.mem_cons, List.not_mem_nil, or_false] at hq
  rcases hq with rfl | rfl | rfl
  · have : ∀ b, b < 2 → ∑ j ∈ Finset.range 2, (⟨[2, 2], [3 / 4, 1 / 4, 1 / 3, 2 / 3]⟩ : Potential ℚ).at' [j, b] = 1 := by decide +kernel
    exact this (x 2) h2
  · have : ∑ j ∈ Finset.range 2, (⟨[2], [1 / 2, 1 / 2]⟩ : Potential ℚ).at' [j] = 1 := by decide +kernel
    exact this
  · have : ∀ a, a < 2 → ∑ j ∈ Finset.range 2, (⟨[2, 2], [9 / 10, 1 / 5, 1 / 10, 4 / 5]⟩ : Potential ℚ).at' [a, j] = 1 := by decide +kernel
    exact this (x 1) h1

theorem biased_normalised : biased.Normalised := by
  intro q hq x hx
  have h1 : x 1 < 2 := hx 1 (by decide)
  have h2 : x 2 < 2 := hx 2 (by decide)
  simp only [biased, List.mem_cons, List.not_mem_nil, or_false] at hq
  rcases hq with rfl | rfl | rfl
  · have : ∀ b, b < 2 → ∑ j ∈ Finset.range 2, (⟨[2, 2], [3 / 4, 1 / 4, 1 / 3, 2 / 3]⟩ : Potential ℚ).at' [j, b] = 1 := by decide +kernel
    exact this (x 2) h2
  · have : ∑ j ∈ Finset.range 2, (⟨[2], [1 / 4, 3 / 4]⟩ : Potential ℚ).at' [j] = 1 := by decide +kernel
    exact this
  · have : ∀ a, a < 2 → ∑ j ∈ Finset.range 2, (⟨[2, 2], [9 / 10, 1 / 5, 1 / 10, 4 / 5]⟩ : Potential ℚ).at' [a, j] = 1 := by decide +kernel
    exact this (x 1) h1

theorem biased_acyclic : biased.Acyclic := ⟨fun v => if v = 2 then 0 else if v = 1 then 1 else 2, by decide +kernel⟩

theorem hmm_acyclic : hmm.Acyclic := ⟨fun v => if v = 2 then 0 else if v = 1 then 1 else 2, by decide +kernel⟩

/-- **C61** is false: the numbers that learning starts from are taken from tables that do not contain the priors, so the first M-step replaces the
prior of the hidden Markov model, `1/4` and `3/4`, by the uniform one. -/
theorem C61_priors_refuted : ¬ ∀ (ptr : Nat) (f : NetFile ℚ), f.Valid → f.Normalised → f.Acyclic → ∀ hist : List (Op ℚ), (∀ op ∈ hist, op.Valid f.net) →
    Continues ptr f hist := by
  intro h
  obtain ⟨m, ps0, ps, m1, ps', m2, h1, h2, h3, h4, h5⟩ := h 8 biased biased_valid biased_normalised biased_acyclic [] (by simp)
  obtain ⟨m3, r, m4, k1, k2, _, k4⟩ := h5 [.priors false] [] (by simp [Op.Valid]) (by simp) (by simp) 2 (show 2 ∈ biased.vars by decide)
  have hrun : (do
      let m ← NetFile.runFile 8 biased []
      let ps0 ← newParameters m
      let (ps, m) ← presentParameters ps0 m
      match ps with
      | none => ub
      | some ps => do
        let (_, _, m) ← mStep ps m
        let m ← m.performAll [.priors false, .propagate]
        let (r, _) ← m.getProbability 2
        ok r) = ok (some [1 / 2, 1 / 2]) := by decide +kernel
  have hr : r = [1 / 2, 1 / 2] := by
    rw [h1, ok_bind, h2, ok_bind, h3, ok_bind] at hrun
    simp only at hrun
    rw [h4, ok_bind] at hrun
    simp only at hrun
    rw [show ([.priors false, .propagate] : List (Op ℚ)) = [.priors false] ++ .propagate :: [] from rfl, k1, ok_bind, k2, ok_bind] at hrun
    simpa using hrun
  obtain ⟨w, hw⟩ : ∃ w, w = (World.fresh biased.net).after biased.net [.priors false] := ⟨_, rfl⟩
  have hp : w.present 2 = true := by
    rw [hw]
    have h1 : 2 ∈ biased.net.roots := by decide +kernel
    have h2 : Usable (biased.net.card 2) (biased.net.prior 2) := ⟨0, by decide, by decide +kernel⟩
    simp [World.after, World.step, World.fresh, h1, h2]
  have he : w.evidence = fun _ => [1, 1] := by rw [hw]; rfl
  have hj : jointWeight biased.net w = jointWeight biased.net { evidence := fun _ => [1, 1], entered := fun _ => true, present := fun _ => true } := by
    funext x
    unfold jointWeight
    rw [he, show biased.net.roots = [2] by decide +kernel]
    simp [hp]
  have ht : totalWeight biased.net w = 1 := by
    unfold totalWeight
    rw [hj]
    decide +kernel
  have hs : stateWeight biased.net w 2 0 = 1 / 4 := by
    unfold stateWeight marginalWeight
    rw [hj]
    decide +kernel
  rw [← hw, ht, hr] at k4
  have := (k4 one_ne_zero).2 0 (show 0 < 2 by decide)
  rw [hs] at this
  norm_num at this

/-- The hypotheses of the partial theorems are met, after some use of the model. -/
example : ContinuesAs biased.net.levelled 8 biased [.priors false, .observe 3 1, .propagate] ∧ Continues 8 hmm [.priors false, .observe 3 1, .propagate] := by
  have hh : ∀ net : Net ℚ, 3 ∈ net.vars → ∀ op ∈ [Op.priors false, .observe 3 1, .propagate], op.Valid net := by
    intro net hnet op hop
    simp only [List.mem_cons, List.not_mem_nil, or_false] at hop
    rcases hop with rfl | rfl | rfl
    · trivial
    · exact hnet
    · trivial
  exact ⟨C61_levelled_partial 8 biased_valid biased_normalised biased_acyclic (hh _ (show 3 ∈ biased.vars by decide)),
    C61_uniform_priors_partial 8 hmm_valid hmm_normalised hmm_acyclic (by decide +kernel) (hh _ (show 3 ∈ hmm.vars by decide))⟩

theorem biased_temporal : biased.Temporal := by
  have hn : ∀ v u : Nat, biased.next v = some u → v = 2 ∧ u = 1 := by
    intro v u hu
    simp only [biased, hmm] at hu
    split_ifs at hu with h2
    exact ⟨h2, by cases hu; rfl⟩
  refine ⟨?_, ?_, ?_⟩
  · intro v _ u hu
    rw [(hn v u hu).1]
    exact ⟨_, List.mem_cons_self .., by decide⟩
  · intro v _ u hu
    rw [(hn v u hu).2]
    exact ⟨by decide, rfl⟩
  · intro v _ w _ u h1 h2
    rw [(hn v u h1).1, (hn w u h2).1]

/-- So are those of the theorem on the whole of learning. -/
example : LearnsFrom (StartsLevelled biased) 8 biased [.priors false, .observe 3 1] noLogs (fun _ => true) [sightings, sightings] none 7 0 7 := by
  refine C61_learning_partial 8 biased_valid biased_normalised biased_acyclic biased_temporal ?_ (by simp [Logs.Law, noLogs]) (fun _ _ _ => le_refl _) _ ?_ 7 0 (by decide)
  · intro op hop
    simp only [List.mem_cons, List.not_mem_nil, or_false] at hop
    rcases hop with rfl | rfl
    · trivial
    · show 3 ∈ biased.vars; decide
  · intro ts hts
    have : ts = sightings := by simpa using hts
    subst this
    exact ⟨sightings_wellFormed, by decide, show ∀ v ∈ sightings.observed, v ∈ hmm.vars by decide⟩

end Props

end Nip
