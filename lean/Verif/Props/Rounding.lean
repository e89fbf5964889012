import Verif.AnyDynamic
import Verif.Props.Sampling
import Verif.Spec.Learn
import Verif.Spec.Rounding

/-!
# C100: rounding errors

The functions of the model are run on machine numbers (`Verif/Spec/Rounding.lean`): every operation is followed by a rounding, and division by zero does not
give a number.
-/

namespace Nip.Props

open Nip Res Spec

set_option linter.unusedSectionVars false

section

variable {K : Type} [Field K] [LinearOrder K] [IsStrictOrderedRing K] {R : Rounding K}

/-! ## sound numbers stay sound -/

theorem fl_nonneg (R : Rounding K) {a : K} (h : 0 ≤ a) : 0 ≤ R.fl a := by
  have := R.mono 0 a h
  rwa [R.zero] at this

theorem sound_closed : Closed (Machine.Sound (R := R)) where
  zero := ⟨0, rfl, le_refl _, R.zero⟩
  one := ⟨1, rfl, zero_le_one, R.one⟩
  add := by
    rintro _ _ ⟨a, rfl, ha, _⟩ ⟨b, rfl, hb, _⟩
    exact ⟨R.fl (a + b), rfl, fl_nonneg R (add_nonneg ha hb), R.idem _⟩
  mul := by
    rintro _ _ ⟨a, rfl, ha, _⟩ ⟨b, rfl, hb, _⟩
    exact ⟨R.fl (a * b), rfl, fl_nonneg R (mul_nonneg ha hb), R.idem _⟩
  div := by
    rintro _ _ ⟨a, rfl, ha, _⟩ ⟨b, rfl, hb, _⟩ h0
    refine ⟨R.fl (a / b), ?_, fl_nonneg R (div_nonneg ha hb), R.idem _⟩
    show (if (Machine.num b : Machine K R) = Machine.num 0 then Machine.nan else _) = _
    exact if_neg (show ¬ (Machine.num b : Machine K R) = Machine.num 0 from h0)

/-- sums grow -/
theorem leftSum_sound : ∀ (d : List (Machine K R)) (s : K), Cells Machine.Sound d → 0 ≤ s → R.fl s = s →
    ∃ t, d.foldl (· + ·) (Machine.num s) = Machine.num t ∧ s ≤ t ∧ R.fl t = t ∧ ∀ a, Machine.num a ∈ d → a ≤ t := by
  intro d
  induction d with
  | nil => intro s _ _ hs; exact ⟨s, rfl, le_refl _, hs, by simp⟩
  | cons x d ih =>
    intro s hd h0 hs
    obtain ⟨a, rfl, ha, hfa⟩ := hd x (List.mem_cons_self ..)
    have h1 : s ≤ R.fl (s + a) := by
      have := R.mono s (s + a) (by linarith)
      rwa [hs] at this
    have h2 : a ≤ R.fl (s + a) := by
      have := R.mono a (s + a) (by linarith)
      rwa [hfa] at this
    obtain ⟨t, e1, e2, e3, e4⟩ := ih (R.fl (s + a)) (fun y hy => hd y (List.mem_cons_of_mem _ hy)) (le_trans h0 h1) (R.idem _)
    refine ⟨t, e1, le_trans h1 e2, e3, ?_⟩
    intro b hb
    rcases List.mem_cons.mp hb with hb | hb
    · cases hb; exact le_trans h2 e2
    · exact e4 b hb

theorem sound_normal : Normal (Machine.Sound (R := R)) Machine.IsProbability := by
  intro d hd r hr
  rw [Potential.normaliseArray_any (by omega)] at hr
  obtain ⟨t, e1, e2, e3, e4⟩ := leftSum_sound d 0 hd (le_refl _) R.zero
  have hsum : Potential.leftSum ((d.drop 0).take d.length) = Machine.num t := by
    rw [List.drop_zero, List.take_length]; exact e1
  rw [hsum] at hr
  split at hr
  · rename_i h0
    cases hr
    have ht : t = 0 := by
      have : (Machine.num t : Machine K R) = Machine.num 0 := h0
      cases this; rfl
    intro x hx
    obtain ⟨a, rfl, ha, _⟩ := hd x hx
    have := e4 a hx
    exact ⟨a, rfl, ha, by rw [ht] at this; exact le_trans this zero_le_one⟩
  · rename_i h0
    cases hr
    have ht : 0 < t := lt_of_le_of_ne e2 (by rintro rfl; exact h0 rfl)
    intro x hx
    obtain ⟨j, hj, rfl⟩ := List.mem_mapIdx.mp hx
    obtain ⟨a, ha', ha, hfa⟩ := hd d[j] (List.getElem_mem _)
    have hle := e4 a (by rw [← ha']; exact List.getElem_mem _)
    rw [if_pos (by omega), ha']
    refine ⟨R.fl (a / t), ?_, fl_nonneg R (div_nonneg ha e2), ?_⟩
    · show (if (Machine.num t : Machine K R) = Machine.num 0 then Machine.nan else _) = _
      exact if_neg (show ¬ (Machine.num t : Machine K R) = Machine.num 0 from h0)
    · have := R.mono (a / t) 1 (by rw [div_le_one ht]; exact hle)
      rwa [R.one] at this

/-! ## statements -/

/-- A network file for the machine: it makes sense, and its tables hold sound numbers. -/
structure SoundFile (f : NetFile (Machine K R)) : Prop where
  valid : f.Valid
  sound : ∀ q ∈ f.pots, ∀ a ∈ q.table.data, a.Sound

/-- A call of a function of the library with legal arguments: the variable exists, and evidence has a sound number for each state. -/
def SoundCall (f : NetFile (Machine K R)) : Op (Machine K R) → Prop
  | .evidence v e => v ∈ f.vars ∧ e.length = f.card v ∧ ∀ a ∈ e, a.Sound
  | .observe v _ => v ∈ f.vars
  | .query v => v ∈ f.vars
  | _ => True

/-- All tables of a model hold sound numbers: of the cliques, the saved ones of the cliques, and both of the separators. -/
structure SoundTables (m : Model (Machine K R)) : Prop where
  cliques : ∀ c ∈ m.tree.cliques, (∀ a ∈ c.p.data, a.Sound) ∧ ∀ a ∈ c.orig.data, a.Sound
  separators : ∀ s ∈ m.tree.sepsets, (∀ a ∈ s.old.data, a.Sound) ∧ ∀ a ∈ s.new.data, a.Sound

/-- A probability for each state. -/
def SoundAnswer (n : Nat) (r : List (Machine K R)) : Prop := r.length = n ∧ ∀ a ∈ r, a.IsProbability

/-- For each time step and each variable a probability for each state. -/
def SoundAnswers (f : NetFile (Machine K R)) (vars : List Nat) (n : Nat) (results : List (List (List (Machine K R)))) : Prop :=
  results.length = n ∧ ∀ row ∈ results, List.Forall₂ (fun v r => SoundAnswer (f.card v) r) vars row

theorem SoundCall.proper {f : NetFile (Machine K R)} {op : Op (Machine K R)} (h : SoundCall f op) : Op.Proper Machine.Sound f.card f.vars op := by
  cases op with
  | evidence v e => exact h
  | observe v i => exact h
  | query v => exact h
  | _ => trivial

theorem Fit.soundTables {f : NetFile (Machine K R)} {m : Model (Machine K R)} (h : Model.Fit Machine.Sound f.card f.vars m) : SoundTables m := by
  constructor
  · intro c hc
    obtain ⟨i, hi⟩ := List.mem_iff_getElem?.mp hc
    exact h.safe.clq i c hi
  · intro s hs
    obtain ⟨i, hi⟩ := List.mem_iff_getElem?.mp hs
    exact h.safe.sep i s hi

/-- **C100**, histories: whatever the rounding, after any history of calls all tables hold numbers that are not negative, and every question is answered with a
number from 0 to 1 for each state. -/
theorem C100_questions (ptr : Nat) {f : NetFile (Machine K R)} (hf : SoundFile f) {hist : List (Op (Machine K R))} (hh : ∀ op ∈ hist, SoundCall f op) :
    ∃ m, NetFile.runFile ptr f hist = ok m ∧ SoundTables m ∧
      ∀ v ∈ f.vars, ∃ r m', m.getProbability v = ok (some r, m') ∧ SoundTables m' ∧ SoundAnswer (f.card v) r := by
  obtain ⟨m0, h1, h2, _⟩ := build_any sound_closed ptr hf.valid hf.sound
  obtain ⟨m, g1, _, g2⟩ := Model.performAll_any sound_closed hist m0 h2 (fun op ho => (hh op ho).proper)
  refine ⟨m, ?_, Fit.soundTables g2, ?_⟩
  · unfold NetFile.runFile
    rw [h1, ok_bind]
    exact g1
  · intro v hv
    obtain ⟨r, m', e1, _, e3, e4, _, e5⟩ := Model.answer_any sound_closed sound_normal g2 hv
    exact ⟨r, m', e1, Fit.soundTables e3, e4, e5⟩

/-- a model from a file, after a history -/
theorem sound_ready (ptr : Nat) {f : NetFile (Machine K R)} (hf : SoundFile f) (ht : f.Temporal) {hist : List (Op (Machine K R))} (hh : ∀ op ∈ hist, SoundCall f op) :
    ∃ m0 s m, NetFile.parseModel ptr f = ok (some (m0, s)) ∧ m0.performAll hist = ok m ∧ Model.Fit Machine.Sound f.card f.vars m ∧ Model.Link f.card f.vars m s ∧
      (fun v => (m.var v).parents) = NetFile.parentsOf f := by
  obtain ⟨m0, s, h1, _, h2, h3, h4⟩ := parse_any sound_closed ptr hf.valid ht hf.sound
  obtain ⟨m, g1, g3, g2⟩ := Model.performAll_any sound_closed hist m0 h2 (fun op ho => (hh op ho).proper)
  exact ⟨m0, s, m, h1, g1, g2, h3.same g3, by funext v; rw [g3.parents]; exact h4 v⟩

/-- **C100**, filtering (the log likelihood not asked for): a number from 0 to 1 for each time step, variable and state. -/
theorem C100_filtering_partial (ptr : Nat) {f : NetFile (Machine K R)} (hf : SoundFile f) (ht : f.Temporal) {hist : List (Op (Machine K R))} (hh : ∀ op ∈ hist, SoundCall f op)
    (marked : Nat → Bool) {ts : TimeSeries} (hts : ts.WellFormed) (hob : ∀ v ∈ ts.observed, v ∈ f.vars) {vars : List Nat} (hvars : ∀ v ∈ vars, v ∈ f.vars) :
    ∃ m0 s m results ll m', NetFile.parseModel ptr f = ok (some (m0, s)) ∧ m0.performAll hist = ok m ∧
      forwardInference none s marked ts vars m = ok (results, ll, m') ∧ SoundTables m' ∧ SoundAnswers f vars ts.length results := by
  obtain ⟨m0, s, m, h1, h2, h3, h4, _⟩ := sound_ready ptr hf ht hh
  obtain ⟨results, ll, m', e1, _, e3, e4⟩ := Model.forward_any sound_closed sound_normal h3 h4 hf.valid.states ⟨hts, hob⟩ marked hvars
  exact ⟨m0, s, m, results, ll, m', h1, h2, e1, Fit.soundTables e3, e4⟩

/-- **C100**, smoothing (the log likelihood not asked for): a number from 0 to 1 for each time step, variable and state. -/
theorem C100_smoothing_partial (ptr : Nat) {f : NetFile (Machine K R)} (hf : SoundFile f) (ht : f.Temporal) {hist : List (Op (Machine K R))} (hh : ∀ op ∈ hist, SoundCall f op)
    (marked : Nat → Bool) {ts : TimeSeries} (hts : ts.WellFormed) (hob : ∀ v ∈ ts.observed, v ∈ f.vars) {vars : List Nat} (hvars : ∀ v ∈ vars, v ∈ f.vars) :
    ∃ m0 s m results ll m', NetFile.parseModel ptr f = ok (some (m0, s)) ∧ m0.performAll hist = ok m ∧
      forwardBackward none s marked ts vars m = ok (results, ll, m') ∧ SoundTables m' ∧ SoundAnswers f vars ts.length results := by
  obtain ⟨m0, s, m, h1, h2, h3, h4, _⟩ := sound_ready ptr hf ht hh
  obtain ⟨results, ll, m', e1, _, e3, e4⟩ := Model.smooth_any sound_closed sound_normal h3 h4 hf.valid.states ⟨hts, hob⟩ marked hvars
  exact ⟨m0, s, m, results, ll, m', h1, h2, e1, Fit.soundTables e3, e4⟩

theorem ranked_acyclic {K : Type} [Zero K] [One K] [Add K] [_root_.Sub K] [Mul K] [Div K] [LinearOrder K] {f : NetFile K} (hf : f.Fits) (h : f.Acyclic) : Acyclic (NetFile.parentsOf f) f.vars := by
  obtain ⟨rank, hr⟩ := h
  intro v hv
  have key : ∀ a b, Relation.TransGen (fun p c => c ∈ f.vars ∧ p ∈ NetFile.parentsOf f c) a b → rank a < rank b := by
    intro a b h
    induction h with
    | single h =>
      obtain ⟨q, h1, h2, h3⟩ := (mem_parentsOf hf).mp h.2
      rw [← h2]; exact hr q h1 _ h3
    | tail _ h ih =>
      obtain ⟨q, h1, h2, h3⟩ := (mem_parentsOf hf).mp h.2
      refine lt_trans ih ?_
      rw [← h2]; exact hr q h1 _ h3
  exact lt_irrefl _ (key v v hv)

/-- **C100**, sampling: whatever the random numbers, each time step has for each variable one of its states. -/
theorem C100_sampling (ptr : Nat) {f : NetFile (Machine K R)} (hf : SoundFile f) (ht : f.Temporal) (hac : f.Acyclic) {hist : List (Op (Machine K R))}
    (hh : ∀ op ∈ hist, SoundCall f op) (mark : Nat → Bool) {fuel : Nat} (hfuel : f.vars.length + 1 ≤ fuel) (random : Nat → Nat → Machine K R) (length : Nat) :
    ∃ m0 s m ts m', NetFile.parseModel ptr f = ok (some (m0, s)) ∧ m0.performAll hist = ok m ∧ generateData s mark fuel random length m = ok (ts, m') ∧ SoundTables m' ∧
      ts.observed.Perm f.vars ∧ ts.length = length ∧ ts.data.length = length ∧
      ∀ row ∈ ts.data, List.Forall₂ (fun v (k : Int) => 0 ≤ k ∧ k < f.card v) ts.observed row := by
  obtain ⟨m0, s, m, h1, h2, h3, h4, h5⟩ := sound_ready ptr hf ht hh
  have hnet : Network (NetFile.parentsOf f) f.vars := by
    refine ⟨hf.valid.sorted.imp ne_of_lt, fun v _ p hp => ?_⟩
    obtain ⟨q, hq, _, hp⟩ := (mem_parentsOf hf.valid).mp hp
    exact ((hf.valid.parents q hq).2 p hp).1
  obtain ⟨order, o1, o2⟩ := C49_order (NetFile.parentsOf f) f.vars mark hnet (ranked_acyclic hf.valid hac) fuel hfuel
  obtain ⟨ts, m', e1, _, e3, e4, e5, e6, e7⟩ := Model.generate_any sound_closed sound_normal hf.valid.states h3 h4 mark fuel random length
    (order := order) (by rw [h5, h3.vars]; exact o1) (fun v hv => o2.1.mem_iff.mp hv)
  exact ⟨m0, s, m, ts, m', h1, h2, e1, Fit.soundTables e3, by rw [e4]; exact o2.1, e5, e6, by rw [e4]; exact e7⟩

end

/-! ## what rounding breaks -/

theorem bind_result {α β : Type} {x : Res α} {f : α → Res β} {b : β} (h : (x >>= f) = ok b) : ∃ a, x = ok a ∧ f a = ok b := by
  cases x with
  | ub => cases h
  | ok a => exact ⟨a, rfl, h⟩


/-- Rounding to zero what is nearer to zero than `3 / 8`; other numbers are kept. -/
def flush : Rounding ℚ where
  fl := fun a => if a < 3 / 8 ∧ -(3 / 8) < a then 0 else a
  mono := by
    intro a b h
    show (if _ then _ else _) ≤ (if _ then _ else _)
    split_ifs with h1 h2 h2
    · exact le_refl _
    · by_contra hb
      exact h2 ⟨by linarith, by linarith⟩
    · by_contra ha
      exact h1 ⟨by linarith, by linarith⟩
    · exact h
  zero := by norm_num
  one := by norm_num
  idem := by
    intro a
    show (if (if _ then _ else _) < _ ∧ _ < (if _ then _ else _) then _ else (if _ then _ else _)) = (if _ then _ else _)
    split_ifs <;> rfl

/-- The number itself. -/
def exactly {R : Rounding ℚ} : Machine ℚ R → ℚ
  | .num a => a
  | .nan => 0

/-- A file with the numbers themselves. -/
def exactFile {R : Rounding ℚ} (f : NetFile (Machine ℚ R)) : NetFile ℚ where
  vars := f.vars
  card := f.card
  next := f.next
  pots := f.pots.map (fun q => { child := q.child, parents := q.parents, table := { card := q.table.card, data := q.table.data.map exactly } })

/-- Variable 1 has two equally likely states; 2 and 3 are copies of it; 4 and 5 are fair coins, drawn after 2 and 3 are known. -/
def coins : NetFile (Machine ℚ flush) where
  vars := [1, 2, 3, 4, 5]
  card := fun _ => 2
  next := fun _ => none
  pots := [{ child := 1, parents := [], table := { card := [2], data := [.num (1 / 2), .num (1 / 2)] } },
    { child := 2, parents := [1], table := { card := [2, 2], data := [.num 1, .num 0, .num 0, .num 1] } },
    { child := 3, parents := [1, 2], table := { card := [2, 2, 2], data := [.num 1, .num 1, .num 0, .num 0, .num 0, .num 0, .num 1, .num 1] } },
    { child := 4, parents := [2], table := { card := [2, 2], data := [.num (1 / 2), .num (1 / 2), .num (1 / 2), .num (1 / 2)] } },
    { child := 5, parents := [3], table := { card := [2, 2], data := [.num (1 / 2), .num (1 / 2), .num (1 / 2), .num (1 / 2)] } }]

theorem coins_valid : coins.Valid where
  sorted := by decide
  ids := by decide
  states := fun _ _ => Nat.zero_lt_two
  tables := by simp [coins]
  child := by decide +kernel
  parents := by decide +kernel
  distinct := by decide +kernel
  shape := by decide +kernel
  nonneg := by decide +kernel

/-- Whether a number is sound, computed. -/
def soundTest : Machine ℚ flush → Bool
  | .num a => decide (0 ≤ a) && decide (flush.fl a = a)
  | .nan => false

theorem soundTest_sound {a : Machine ℚ flush} (h : soundTest a = true) : a.Sound := by
  cases a with
  | num a =>
    simp only [soundTest, Bool.and_eq_true, decide_eq_true_eq] at h
    exact ⟨a, rfl, h.1, h.2⟩
  | nan => cases h

theorem coins_sound : SoundFile coins := by
  refine ⟨coins_valid, fun q hq a ha => soundTest_sound ?_⟩
  have : ∀ q ∈ coins.pots, ∀ a ∈ q.table.data, soundTest a = true := by decide +kernel
  exact this q hq a ha

theorem coins_temporal : coins.Temporal := by
  refine ⟨?_, ?_, ?_⟩
  · intro v _ u hu; cases hu
  · intro v _ u hu; cases hu
  · intro v _ w _ u h; cases h

theorem coins_acyclic : coins.Acyclic := ⟨fun v => v, by decide +kernel⟩

/-- The answer to a question after a history. -/
def answerTo {K : Type} [Zero K] [One K] [Add K] [Sub K] [Mul K] [Div K] [LinearOrder K] (f : NetFile K) (hist : List (Op K)) (v : Nat) : Res (Option (List K)) := do
  let m ← NetFile.runFile 8 f hist
  let r ← m.getProbability v
  ok r.1

/-- **C100**, what rounding breaks: the probabilities reported for the states of a variable need not sum to one, although they are not all zero. -/
theorem C100_sum_refuted : ¬ ∀ (R : Rounding ℚ) (f : NetFile (Machine ℚ R)) (hist : List (Op (Machine ℚ R))), SoundFile f → (∀ op ∈ hist, SoundCall f op) →
    ∀ (v : Nat) (r : List (Machine ℚ R)), answerTo f hist v = ok (some r) → (r.map exactly).sum = 0 ∨ (r.map exactly).sum = 1 := by
  intro h
  have h1 : answerTo coins [.evidence 1 [.num 4, .num 1], .priors false, .propagate] 1 = ok (some [.num (4 / 5), .num 0]) := by decide +kernel
  have h2 := h flush coins _ coins_sound (by
    intro op hop
    simp only [List.mem_cons, List.not_mem_nil, or_false] at hop
    rcases hop with rfl | rfl | rfl
    · refine ⟨by decide, rfl, fun a ha => soundTest_sound ?_⟩
      have : ∀ a ∈ ([.num 4, .num 1] : List (Machine ℚ flush)), soundTest a = true := by decide +kernel
      exact this a ha
    · trivial
    · trivial) 1 _ h1
  norm_num [exactly] at h2

/-- **C100**, what rounding breaks: the probabilities reported for the states of a variable may all be zero, although nothing impossible was entered and with exact
numbers the answer is that both states are equally likely. -/
theorem C100_zero_refuted : answerTo coins [.priors false, .propagate] 4 = ok (some [.num 0, .num 0]) ∧
    answerTo (exactFile coins) [.priors false, .propagate] 4 = ok (some [1 / 2, 1 / 2]) := by
  constructor <;> decide +kernel

/-- Variable 1 is a fair coin; 2 and 3 are certain; 4 and 5 are fair coins, drawn after 2 and 3. -/
def twoCertain : NetFile (Machine ℚ flush) where
  vars := [1, 2, 3, 4, 5]
  card := fun _ => 2
  next := fun _ => none
  pots := [{ child := 1, parents := [], table := { card := [2], data := [.num (1 / 2), .num (1 / 2)] } },
    { child := 2, parents := [1], table := { card := [2, 2], data := [.num 1, .num 1, .num 0, .num 0] } },
    { child := 3, parents := [1, 2], table := { card := [2, 2, 2], data := [.num 1, .num 1, .num 1, .num 1, .num 0, .num 0, .num 0, .num 0] } },
    { child := 4, parents := [2], table := { card := [2, 2], data := [.num (1 / 2), .num (1 / 2), .num (1 / 2), .num (1 / 2)] } },
    { child := 5, parents := [3], table := { card := [2, 2], data := [.num (1 / 2), .num (1 / 2), .num (1 / 2), .num (1 / 2)] } }]

theorem twoCertain_sound : SoundFile twoCertain := by
  refine ⟨⟨⟨by decide, by decide, fun _ _ => Nat.zero_lt_two, by simp [twoCertain], by decide +kernel, by decide +kernel, by decide +kernel, by decide +kernel⟩,
    by decide +kernel⟩, fun q hq a ha => soundTest_sound ?_⟩
  have : ∀ q ∈ twoCertain.pots, ∀ a ∈ q.table.data, soundTest a = true := by decide +kernel
  exact this q hq a ha

theorem twoCertain_temporal : twoCertain.Temporal := by
  refine ⟨?_, ?_, ?_⟩
  · intro v _ u hu; cases hu
  · intro v _ u hu; cases hu
  · intro v _ w _ u h; cases h

/-- One time step, in which the first coin is seen. -/
def coinSeen : TimeSeries where
  numVars := 5
  numHidden := 4
  hidden := [2, 3, 4, 5]
  numObserved := 1
  observed := [1]
  length := 1
  data := [[0]]

theorem coinSeen_wellFormed : coinSeen.WellFormed where
  observed := rfl
  hidden := rfl
  rows := rfl
  row := by decide

/-- The mass after the first time step of `forward_inference`, computed. -/
def massAfter (f : NetFile (Machine ℚ flush)) (ts : TimeSeries) : Res (Machine ℚ flush) := do
  let r ← NetFile.parseModel 8 f
  match r with
  | none => ub
  | some (m, s) => do
    let _ ← newMessage s m
    let m ← m.reset
    let m ← m.usePriors false
    let m ← m.makeConsistent
    let (_, m) ← m.probMass
    let (_, m) ← insertStep (fun _ => true) ts 0 m
    let m ← m.makeConsistent
    let (k, _) ← m.probMass
    ok k

theorem twoCertain_mass : massAfter twoCertain coinSeen = ok (.num (-(1 / 2))) := by decide +kernel

/-- **C100**, what rounding breaks: if the log likelihood is asked for, the assertion that the mass of the probabilities is not negative may fail.  The data is one
time step in which a coin that may show both sides is seen, and the logarithm may be any function.  Without the question for the log likelihood all goes well. -/
theorem C100_assertion_refuted : SoundFile twoCertain ∧ twoCertain.Temporal ∧ coinSeen.WellFormed ∧ ∃ m s, NetFile.parseModel 8 twoCertain = ok (some (m, s)) ∧
    ∀ g vars, forwardInference (some g) s (fun _ => true) coinSeen vars m = ub := by
  refine ⟨twoCertain_sound, twoCertain_temporal, coinSeen_wellFormed, ?_⟩
  have h := twoCertain_mass
  unfold massAfter at h
  cases e : NetFile.parseModel 8 twoCertain with
  | ub => rw [e] at h; cases h
  | ok r =>
    rw [e, ok_bind] at h
    cases r with
    | none => cases h
    | some p =>
      obtain ⟨m, s⟩ := p
      refine ⟨m, s, rfl, ?_⟩
      intro g vars
      simp only at h
      obtain ⟨a, e1, h⟩ := bind_result h
      obtain ⟨m1, e2, h⟩ := bind_result h
      obtain ⟨m2, e3, h⟩ := bind_result h
      obtain ⟨m3, e4, h⟩ := bind_result h
      obtain ⟨⟨k1, m4⟩, e5, h⟩ := bind_result h
      simp only at h
      obtain ⟨⟨c, m5⟩, e6, h⟩ := bind_result h
      simp only at h
      obtain ⟨m6, e7, h⟩ := bind_result h
      obtain ⟨⟨k, m7⟩, e8, h⟩ := bind_result h
      cases h
      unfold forwardInference
      rw [e1, ok_bind, e2, ok_bind, e3, ok_bind]
      have hstep : forwardStep (some g) s (fun _ => true) coinSeen vars 0 { model := m2, alpha := a, results := [], ll := 0 } = ub := by
        unfold forwardStep arriveForward absorb
        simp only [lt_irrefl, if_false, ok_bind]
        rw [e4, ok_bind, e5, ok_bind]
        simp only [Nat.cast_zero]
        rw [e6, ok_bind]
        simp only
        rw [e7, ok_bind, e8, ok_bind]
        simp only
        rw [if_neg (show ¬ (0 : Machine ℚ flush) ≤ .num (-(1 / 2)) by decide +kernel)]
        rfl
      have hloop : loop coinSeen.length (forwardStep (some g) s (fun _ => true) coinSeen vars) { model := m2, alpha := a, results := [], ll := 0 } = ub := by
        show loop 1 _ _ = ub
        simp [loop, hstep, ub_bind]
      rw [hloop]
      rfl

/-! ## cases -/

/-- a history -/
def coinsHistory : List (Op (Machine ℚ flush)) := [.priors false, .evidence 4 [.num (1 / 2), .num 3], .observe 5 1, .propagate, .mass, .query 2, .reset, .priors true, .propagate]

theorem coinsHistory_sound : ∀ op ∈ coinsHistory, SoundCall coins op := by
  intro op hop
  simp only [coinsHistory, List.mem_cons, List.not_mem_nil, or_false] at hop
  rcases hop with rfl | rfl | rfl | rfl | rfl | rfl | rfl | rfl | rfl
  · trivial
  · refine ⟨by decide, rfl, fun a ha => soundTest_sound ?_⟩
    have : ∀ a ∈ ([.num (1 / 2), .num 3] : List (Machine ℚ flush)), soundTest a = true := by decide +kernel
    exact this a ha
  · show 5 ∈ coins.vars; decide
  · trivial
  · trivial
  · show 2 ∈ coins.vars; decide
  · trivial
  · trivial
  · trivial

example : ∃ m, NetFile.runFile 8 coins coinsHistory = ok m ∧ SoundTables m ∧
    ∀ v ∈ coins.vars, ∃ r m', m.getProbability v = ok (some r, m') ∧ SoundTables m' ∧ SoundAnswer (coins.card v) r :=
  C100_questions 8 coins_sound coinsHistory_sound

/-- time steps in which 4 and 5 are seen, or not -/
def tosses : TimeSeries where
  numVars := 5
  numHidden := 3
  hidden := [1, 2, 3]
  numObserved := 2
  observed := [5, 4]
  length := 3
  data := [[0, 1], [-1, 0], [1, 7]]

theorem tosses_wellFormed : tosses.WellFormed where
  observed := rfl
  hidden := rfl
  rows := rfl
  row := by decide

example := C100_filtering_partial 8 coins_sound coins_temporal coinsHistory_sound (fun v => v ≠ 4) tosses_wellFormed (by decide) (vars := [1, 4]) (by decide)

example := C100_smoothing_partial 8 coins_sound coins_temporal coinsHistory_sound (fun _ => true) tosses_wellFormed (by decide) (vars := [3, 4]) (by decide)

example := C100_sampling 8 coins_sound coins_temporal coins_acyclic coinsHistory_sound (fun _ => true) (fuel := 6) (by decide) (fun t i => if t = i then .num 1 else .nan) 4

end Nip.Props
