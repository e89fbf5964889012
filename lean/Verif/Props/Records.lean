import Verif.ProgramsMass
import Verif.Props.Programs

/-!
# C77, C78: `niplikelihood` and `nipjoint`

The weight of a record is that of all assignments to the variables of one time slice that agree with it (`Verif/Spec/Records.lean`).
-/

namespace Nip.Props

open Nip Res Spec

set_option linter.unusedSectionVars false

variable {K : Type} [Field K] [LinearOrder K] [IsStrictOrderedRing K]

/-! ## C77 -/

/-- The variable has one of the names. -/
def OfInterest (x : VarTexts) (names : List (List Char)) (v : Nat) : Prop := x.symbol v ∈ names

open Classical in
/-- What is seen in record `t` of the variables not of interest. -/
noncomputable def seenOthers (x : VarTexts) (names : List (List Char)) (ts : TimeSeries) (t v : Nat) : Int :=
  if OfInterest x names v then -1 else allSeen ts t v

/-- **C77**, the claim about the numbers of a record: the quotient is the conditional probability of what is seen of the variables of
interest given what is seen of the others, in a network with all its priors. -/
def ConditionalLikelihood (f : NetFile K) (x : VarTexts) (names : List (List Char)) (ts : TimeSeries) (t : Nat) (m1 m2 : K) : Prop :=
  m2 / m1 = f.recordWeight True (allSeen ts t) / f.recordWeight True (seenOthers x names ts t)

/-- What is computed for a record: the same, but after the first record without the priors of the variables that have a successor. -/
def SliceLikelihood (f : NetFile K) (x : VarTexts) (names : List (List Char)) (ts : TimeSeries) (t : Nat) (m1 m2 : K) : Prop :=
  m1 = f.recordWeight (t = 0) (seenOthers x names ts t) ∧ m2 = f.recordWeight (t = 0) (allSeen ts t)

theorem markNames_iff {x : VarTexts} {vars : List Nat} (h : x.Model vars) (names : List (List Char)) {v : Nat} (hv : v ∈ vars) :
    markNames x vars names v = true ↔ OfInterest x names v := by
  unfold markNames OfInterest
  rw [List.any_eq_true]
  constructor
  · rintro ⟨n, hn, e⟩
    rw [beq_iff_eq] at e
    rw [← ((search_symbol h n v).1 e).2]
    exact hn
  · intro hn
    exact ⟨_, hn, by rw [beq_iff_eq]; exact (search_symbol h _ _).2 ⟨hv, rfl⟩⟩

theorem recordWeight_congr {f : NetFile K} {P Q : Prop} {s s' : Nat → Int} (hpq : ∀ v, (P ∨ f.next v = none) ↔ (Q ∨ f.next v = none))
    (hs : ∀ v ∈ f.vars, s v = s' v) : f.recordWeight P s = f.recordWeight Q s' := by
  unfold NetFile.recordWeight
  refine sumOver_congr' fun x => ?_
  unfold NetFile.sliceWeight weightOf
  refine congrArg₂ (· * ·) (congrArg (f.net.tables x * ·) (congrArg List.prod (List.map_congr_left fun v _ => ?_)))
    (congrArg List.prod (List.map_congr_left fun v hv => ?_))
  · by_cases h : (P ∨ f.next v = none) ∧ Usable (f.net.card v) (f.net.prior v)
    · rw [if_pos h, if_pos ⟨(hpq v).1 h.1, h.2⟩]
    · rw [if_neg h, if_neg (fun g => h ⟨(hpq v).2 g.1, g.2⟩)]
  · unfold vision
    rw [hs v hv]

theorem masses_slice {f : NetFile K} {x : VarTexts} (hx : x.Model f.vars) (names : List (List Char)) (ts : TimeSeries) (t : Nat) :
    SliceLikelihood f x names ts t (recordMasses f (markNames x f.vars names) ts t).1 (recordMasses f (markNames x f.vars names) ts t).2 := by
  refine ⟨recordWeight_congr (fun v => Iff.rfl) fun v hv => ?_, rfl⟩
  unfold seenOthers allSeen dataSees rowSees
  have := markNames_iff hx names hv
  by_cases h : OfInterest x names v
  · rw [if_pos h]
    simp [this.2 h]
  · have hm : markNames x f.vars names v = false := by
      rw [← Bool.not_eq_true, this]; exact h
    rw [if_neg h]
    simp [hm]

/-- The numbers of all records of a series are right in the sense of `good`. -/
def AllRecords (good : TimeSeries → Nat → K → K → Prop) (ts : TimeSeries) (l : List (K × K)) : Prop :=
  l.length = ts.length ∧ ∀ (t : Nat) (p : K × K), l[t]? = some p → good ts t p.1 p.2

/-- What `niplikelihood` computes, for every valid file whose temporal links make sense and all series about its variables: one pair of numbers
for each record; from the second record of a series on without the priors of the variables with a successor. -/
theorem C77_numbers_partial (ptr : Nat) {f : NetFile K} (hf : f.Valid) (ht : f.Temporal) {x : VarTexts} (hx : TextsOf f x) (names : List (List Char))
    {set : List TimeSeries} (hne : set ≠ []) (hset : ∀ ts ∈ set, SeriesOf f ts) :
    ∃ m s r, NetFile.parseModel ptr f = ok (some (m, s)) ∧ niplikelihood x f.vars names set m = ok (some r) ∧
      List.Forall₂ (AllRecords (SliceLikelihood f x names)) set r := by
  obtain ⟨m, s, h1, _, h3, _, _, _⟩ := interface_spec ptr hf ht
  obtain ⟨m', e⟩ := likelihoodAll_spec hf ht (markNames x f.vars names) (fun ts h => (hset ts h).about) h3.carries []
  refine ⟨m, s, set.map (fun ts => (List.range ts.length).map (recordMasses f (markNames x f.vars names) ts)), h1, ?_, ?_⟩
  · unfold niplikelihood likelihoodAll
    rw [if_neg (by simpa using hne), e, ok_bind]
    rfl
  · rw [List.forall₂_map_right_iff, List.forall₂_same]
    intro ts _
    refine ⟨by simp, ?_⟩
    intro t p hp
    have htl : t < ts.length := by simpa using (List.getElem?_eq_some_iff.mp hp).1
    rw [List.getElem?_map, List.getElem?_range htl, Option.map_some, Option.some.injEq] at hp
    subst hp
    exact masses_slice hx.texts names ts t

/-- **C77** (partial).  The claim holds for the first record of each series, and for all records if the file has no temporal links.  What is
missing: later records if there are links, for which it is false. -/
theorem C77_first_partial (ptr : Nat) {f : NetFile K} (hf : f.Valid) (ht : f.Temporal) {x : VarTexts} (hx : TextsOf f x) (names : List (List Char))
    {set : List TimeSeries} (hne : set ≠ []) (hset : ∀ ts ∈ set, SeriesOf f ts) :
    ∃ m s r, NetFile.parseModel ptr f = ok (some (m, s)) ∧ niplikelihood x f.vars names set m = ok (some r) ∧
      List.Forall₂ (AllRecords (fun ts t m1 m2 => t = 0 ∨ (∀ v, f.next v = none) → ConditionalLikelihood f x names ts t m1 m2)) set r := by
  obtain ⟨m, s, r, h1, h2, h3⟩ := C77_numbers_partial ptr hf ht hx names hne hset
  refine ⟨m, s, r, h1, h2, h3.imp fun ts l h => ⟨h.1, fun t p hp h0 => ?_⟩⟩
  obtain ⟨g1, g2⟩ := h.2 t p hp
  have hpq : ∀ v, (t = 0 ∨ f.next v = none) ↔ (True ∨ f.next v = none) := by
    intro v
    rcases h0 with h0 | h0
    · simp [h0]
    · simp [h0 v]
  unfold ConditionalLikelihood
  rw [g1, g2, recordWeight_congr hpq fun _ _ => rfl, recordWeight_congr (s := seenOthers x names ts t) hpq fun _ _ => rfl]

/-- The numbers computed. -/
def likelihoodOf (f : NetFile ℚ) (x : VarTexts) (names : List (List Char)) (set : List TimeSeries) : Res (Option (List (List (ℚ × ℚ)))) := do
  let r ← NetFile.parseModel 8 f
  match r with
  | none => ok none
  | some (m, _) => niplikelihood x f.vars names set m

/-- A hidden Markov model with a prior that is not uniform. -/
def biasedFile : NetFile ℚ where
  vars := [1, 2, 3]
  card := fun _ => 2
  next := fun v => if v = 2 then some 1 else none
  pots := [{ child := 1, parents := [2], table := { card := [2, 2], data := [3 / 4, 1 / 4, 1 / 3, 2 / 3] } },
    { child := 2, parents := [], table := { card := [2], data := [9 / 10, 1 / 10] } },
    { child := 3, parents := [1], table := { card := [2, 2], data := [9 / 10, 1 / 5, 1 / 10, 4 / 5] } }]

theorem biasedFile_valid : biasedFile.Valid where
  sorted := by decide
  ids := by decide
  states := fun _ _ => Nat.zero_lt_two
  tables := by simp [biasedFile]
  child := by decide +kernel
  parents := by decide +kernel
  distinct := by decide +kernel
  shape := by decide +kernel
  nonneg := by decide +kernel

theorem biasedFile_temporal : biasedFile.Temporal := by
  have hn : ∀ v u : Nat, biasedFile.next v = some u → v = 2 ∧ u = 1 := by
    intro v u hu
    simp only [biasedFile] at hu
    split_ifs at hu with h2
    exact ⟨h2, by cases hu; rfl⟩
  refine ⟨?_, ?_, ?_⟩
  · intro v _ u hu
    rw [(hn v u hu).1]
    exact ⟨_, List.mem_cons_self .., by decide⟩
  · intro v _ u hu
    rw [(hn v u hu).2]
    exact ⟨by decide, rfl⟩
  · intro v _ w _ u h1 h2
    rw [(hn v u h1).1, (hn w u h2).1]

/-- Two equal records. -/
def twiceSeries : TimeSeries := { sightings with length := 2, data := [[0], [0]] }

theorem twiceSeries_of : SeriesOf biasedFile twiceSeries := ⟨⟨rfl, rfl, rfl, by decide⟩, by decide, by decide⟩

/-- **C77** is false for later records if the file has temporal links: of two equal records the second has another quotient than the first. -/
theorem C77_refuted : ¬ ∀ (f : NetFile ℚ) (x : VarTexts) (names : List (List Char)) (set : List TimeSeries), f.Valid → f.Temporal → TextsOf f x →
    set ≠ [] → (∀ ts ∈ set, SeriesOf f ts) → ∃ m s r, NetFile.parseModel 8 f = ok (some (m, s)) ∧ niplikelihood x f.vars names set m = ok (some r) ∧
      List.Forall₂ (AllRecords (ConditionalLikelihood f x names)) set r := by
  intro hall
  obtain ⟨m, s, r, h1, h2, h3⟩ := hall biasedFile hmmTexts ["B".toList] [twiceSeries] biasedFile_valid biasedFile_temporal
    ⟨⟨by decide, by decide, fun _ _ => ⟨_, rfl, rfl⟩⟩, fun _ _ => rfl⟩ (by simp) (by simpa using twiceSeries_of)
  have hr : likelihoodOf biasedFile hmmTexts ["B".toList] [twiceSeries] = ok (some [[(1, 167 / 240), (2, 139 / 120)]]) := by decide +kernel
  unfold likelihoodOf at hr
  rw [h1, ok_bind] at hr
  simp only at hr
  rw [h2] at hr
  cases hr
  have h4 := (List.forall₂_cons.1 h3).1.2
  have e0 := h4 0 _ rfl
  have e1 := h4 1 _ rfl
  unfold ConditionalLikelihood at e0 e1
  have hs : allSeen twiceSeries 1 = allSeen twiceSeries 0 := by
    funext v
    rfl
  have ho : seenOthers hmmTexts ["B".toList] twiceSeries 1 = seenOthers hmmTexts ["B".toList] twiceSeries 0 := by
    funext v
    rfl
  rw [hs, ho, ← e0] at e1
  norm_num at e1

/-- The hypotheses of the partial theorem are met; two series, so that the model is used again. -/
example : ∃ m s r, NetFile.parseModel 8 biasedFile = ok (some (m, s)) ∧ niplikelihood hmmTexts biasedFile.vars ["B".toList] [twiceSeries, twiceSeries] m = ok (some r) ∧
      List.Forall₂ (AllRecords (fun ts t m1 m2 => t = 0 ∨ (∀ v, biasedFile.next v = none) → ConditionalLikelihood biasedFile hmmTexts ["B".toList] ts t m1 m2))
        [twiceSeries, twiceSeries] r :=
  C77_first_partial 8 biasedFile_valid biasedFile_temporal ⟨⟨by decide, by decide, fun _ _ => ⟨_, rfl, rfl⟩⟩, fun _ _ => rfl⟩ _ (by simp)
    (by simpa using twiceSeries_of)

/-! ## C78 -/

/-- **C78** is false without names on the command line: for every model, whatever it is, and every data file in which there is a variable, the
array of variables is freed twice if the program gets that far, and it never ends well. -/
theorem C78_no_names_refuted (x : VarTexts) (vars : List Nat) (ts : TimeSeries) (rest : List TimeSeries) (m : Model K)
    (h : 0 < ts.numHidden ∨ 0 < ts.numObserved) : nipjoint x vars [] (ts :: rest) m = ub := by
  cases hr : nipjoint x vars [] (ts :: rest) m with
  | ub => rfl
  | ok r =>
    exfalso
    unfold nipjoint at hr
    obtain ⟨m1, _, hr⟩ := bind_ok hr
    simp only at hr
    obtain ⟨m2, _, hr⟩ := bind_ok hr
    obtain ⟨⟨p1, m3⟩, _, hr⟩ := bind_ok hr
    obtain ⟨⟨_, m4⟩, _, hr⟩ := bind_ok hr
    obtain ⟨m5, _, hr⟩ := bind_ok hr
    obtain ⟨⟨p2, m6⟩, _, hr⟩ := bind_ok hr
    obtain ⟨vs, b, hj, hb⟩ : ∃ vs b, jointVars x vars [] ts = some (vs, some b) ∧ (b = .hidden 0 ∨ 0 < ts.numObserved ∧ b = .observed 0) := by
      unfold jointVars
      rw [if_neg (by simp)]
      by_cases h0 : 0 < ts.numHidden
      · rw [if_pos h0]; exact ⟨_, _, rfl, Or.inl rfl⟩
      · rw [if_neg h0, if_pos (h.resolve_left h0)]; exact ⟨_, _, rfl, Or.inr ⟨h.resolve_left h0, rfl⟩⟩
    rw [hj] at hr
    simp only at hr
    obtain ⟨⟨p, m7⟩, _, hr⟩ := bind_ok hr
    simp only at hr
    split at hr
    · cases hr
    · cases p with
      | none => cases hr
      | some p =>
        simp only [freeBlock_new (show b ∉ ([] : List Block) by simp), ok_bind] at hr
        obtain ⟨l, hl, _⟩ := bind_ok hr
        have hfree : freeSeries 0 ts [b] = ub := freeSeries_twice (by
          rcases hb with rfl | ⟨h1, rfl⟩
          · exact Or.inl (by simp)
          · exact Or.inr ⟨h1, by simp⟩)
        have key : ∀ n, loop (n + 1) (fun n freed => do
            let t ← rd (ts :: rest) n
            freeSeries n t freed) [b] = ub := by
          intro n
          induction n with
          | zero =>
            rw [loop_succ]
            exact hfree
          | succ n ih =>
            rw [loop_succ, ih]
            rfl
        rw [List.length_cons, key] at hl
        cases hl

theorem mapM_symbols {x : VarTexts} {vars : List Nat} (h : x.Model vars) {vs : List Nat} (hv : ∀ v ∈ vs, v ∈ vars) :
    (vs.map x.symbol).mapM (fun name => x.search vars name) = some vs := by
  induction vs with
  | nil => rfl
  | cons v vs ih =>
    rw [List.map_cons, List.mapM_cons, (search_symbol h _ _).2 ⟨hv v (by simp), rfl⟩, ih (fun u hu => hv u (by simp [hu]))]
    rfl

theorem jointVars_named {x : VarTexts} {vars : List Nat} (h : x.Model vars) {vs : List Nat} (hne : vs ≠ []) (hv : ∀ v ∈ vs, v ∈ vars) (ts : TimeSeries) :
    jointVars x vars (vs.map x.symbol) ts = some (vs, some .chosen) := by
  unfold jointVars
  rw [if_pos (by rw [List.length_map]; exact List.length_pos_iff.mpr hne), mapM_symbols h hv]
  rfl

/-- **C78** is false also with names if the model has more than one clique: the result of `get_joint_probability` is a null pointer then (or it
reads outside of its arrays, C65), and it is used without a check. -/
theorem C78_two_cliques_refuted (ptr : Nat) {f : NetFile K} (hf : f.Valid) (ht : f.Temporal) {x : VarTexts} (hx : TextsOf f x) {vs : List Nat}
    (hne : vs ≠ []) (hn : vs.Nodup) (hv : ∀ v ∈ vs, v ∈ f.vars) {ts : TimeSeries} {rest : List TimeSeries} (hts : SeriesOf f ts) (hpos : 0 < ts.length) :
    ∃ m s, NetFile.parseModel ptr f = ok (some (m, s)) ∧
      (2 ≤ m.tree.cliques.length → nipjoint x f.vars (vs.map x.symbol) (ts :: rest) m = ub) := by
  obtain ⟨m, s, h1, _, h3, _, _, _⟩ := interface_spec ptr hf ht
  refine ⟨m, s, h1, fun h2 => ?_⟩
  obtain ⟨m', w', e1, e2, _, e4⟩ := nipjoint_front hf ht x (vs.map x.symbol) rest hts.about hpos h3
  rw [e1, jointVars_named hx.texts hne hv]
  unfold jointEnd
  simp only
  cases hj : m'.getJointProbability vs with
  | ub => rfl
  | ok r =>
    obtain ⟨p, m''⟩ := r
    cases p with
    | none => simp
    | some p => exact absurd hj (Model.Sound.joint_fails hf e2.sound (by omega) hne hn hv p m'')

/-- What `nipjoint` should print: the joint distribution of the variables given the first record, and numbers whose quotient is the probability
of that record. -/
def ReportsFirst (f : NetFile K) (vs : List Nat) (ts : TimeSeries) (r : JointReport K) : Prop :=
  r.vars = vs ∧ r.m1 = f.recordWeight True (fun _ => -1) ∧ r.m2 = f.recordWeight True (allSeen ts 0) ∧
    r.table.card = vs.map f.card ∧ r.table.data.length = r.table.card.prod ∧
    (f.recordWeight True (allSeen ts 0) ≠ 0 → ∀ y, Legal f.card f.vars y → r.table.at' (vs.map y) =
      sumOver f.card (f.vars.filter (· ∉ vs)) (f.sliceWeight True (allSeen ts 0)) y / f.recordWeight True (allSeen ts 0))

/-- **C78** (partial).  With the names of different variables, a first series that is not empty and a model with a single clique, `nipjoint` is
safe, frees everything once, and prints the right table and numbers.  What is missing: models with several cliques and calls without names, for
which it is false, the same name twice, and files with other temporal links. -/
theorem C78_named_partial (ptr : Nat) {f : NetFile K} (hf : f.Valid) (ht : f.Temporal) {x : VarTexts} (hx : TextsOf f x) {vs : List Nat}
    (hne : vs ≠ []) (hn : vs.Nodup) (hv : ∀ v ∈ vs, v ∈ f.vars) {ts : TimeSeries} {rest : List TimeSeries} (hts : SeriesOf f ts) (hpos : 0 < ts.length) :
    ∃ m s, NetFile.parseModel ptr f = ok (some (m, s)) ∧
      (m.tree.cliques.length = 1 → ∃ r, nipjoint x f.vars (vs.map x.symbol) (ts :: rest) m = ok (some r) ∧ ReportsFirst f vs ts r) := by
  obtain ⟨m, s, h1, _, h3, _, _, _⟩ := interface_spec ptr hf ht
  refine ⟨m, s, h1, fun h2 => ?_⟩
  obtain ⟨m', w', e1, e2, e3, e4⟩ := nipjoint_front hf ht x (vs.map x.symbol) rest hts.about hpos h3
  obtain ⟨q, m'', g1, g2, g3⟩ := e2.joint_single hf e3 (e4.trans h2) hne hn hv
  obtain ⟨l, f1, f2⟩ := freeAll_once (ts :: rest)
  rw [e1, jointVars_named hx.texts hne hv]
  unfold jointEnd
  simp only
  rw [g1, ok_bind]
  simp only
  rw [if_neg (by have := List.length_pos_iff.mpr hne; omega), freeBlock_new (by simp), ok_bind, f1, ok_bind, freeBlock_new f2, ok_bind]
  refine ⟨_, rfl, rfl, rfl, rfl, g2.card_eq, g2.wf.1, ?_⟩
  intro hne0 y hy
  have hst : states f.card vs y = vs.map y := List.map_congr_left (fun v h => Nat.mod_eq_of_lt (hy v (hv v h)))
  have htot := sum_slate hf ht false (allSeen ts 0)
  simp only [eq_self_iff_true] at htot
  replace htot : sumOver f.card f.vars (fun x => repd f.net (slateOf f.net false) x * sight f.net (vision f.net.card (dataSees (fun _ => true) ts.observed ts.data 0)) x) (fun _ => 0) =
      f.recordWeight True (allSeen ts 0) := htot
  have := g3 (by rw [htot]; exact hne0) y
  rw [htot] at this
  unfold sem at this
  rw [hst] at this
  simp only
  rw [this]
  congr 1
  refine sumOver_legal (U := f.vars) (fun z hz => ?_) _ _ ?_
  · have := slate_weight hf ht false (allSeen ts 0) hz
    simp only [eq_self_iff_true] at this
    exact this
  · intro v h _
    exact hy v h

/-- A series about two variables. -/
def pairSeries : TimeSeries where
  numVars := 2
  numHidden := 1
  hidden := [1]
  numObserved := 1
  observed := [2]
  length := 3
  data := [[0], [-1], [1]]

/-- A file with two variables in one clique and no temporal links. -/
example : ∃ m s, NetFile.parseModel 8 twoNodes = ok (some (m, s)) ∧
    (m.tree.cliques.length = 1 → ∃ r, nipjoint hmmTexts twoNodes.vars ["A0".toList, "A".toList] [pairSeries] m = ok (some r) ∧
      ReportsFirst twoNodes [2, 1] pairSeries r) :=
  C78_named_partial (vs := [2, 1]) 8 twoNodes_valid ⟨fun v _ u hu => (Option.not_mem_none u hu).elim, fun v _ u hu => (Option.not_mem_none u hu).elim,
      fun v _ w _ u hu => (Option.not_mem_none u hu).elim⟩ ⟨⟨by decide, by decide, fun _ _ => ⟨_, rfl, rfl⟩⟩, fun _ _ => rfl⟩ (by simp) (by decide) (by decide)
    ⟨⟨rfl, rfl, rfl, by decide⟩, by decide, by decide⟩ (by decide)

/-- What is printed: variables; the table followed by the two numbers. -/
def jointReport (f : NetFile ℚ) (x : VarTexts) (names : List (List Char)) (set : List TimeSeries) : Res (Option (List Nat × List ℚ)) := do
  let r ← NetFile.parseModel 8 f
  match r with
  | none => ok none
  | some (m, _) => do
    let r ← nipjoint x f.vars names set m
    ok (r.map (fun r => (r.vars, r.table.data ++ [r.m1, r.m2])))

/-- With names the numbers are printed; without names, or with the two cliques of the hidden Markov model, the behaviour is undefined. -/
example : jointReport twoNodes hmmTexts ["A0".toList, "A".toList] [pairSeries] =
      ok (some ([2, 1], [3 / 5, 0, 2 / 5, 0, 1, 3 / 8])) ∧
    jointReport twoNodes hmmTexts [] [pairSeries] = ub ∧
    jointReport hmm hmmTexts ["A0".toList, "A".toList] [sightings] = ub := by decide +kernel

end Nip.Props
