import Verif.ProgramsConvert
import Verif.Props.Programs

/-!
# C79, C80: `nipconvert` and the batches of `niptrain`
-/

namespace Nip.Props

open Nip Res Spec

set_option linter.unusedSectionVars false

/-! ## C79 -/

/-- The digits for the value `d` of a variable with `n` states: `1` for the state, `0` for the others; a missing value (negative) has no `1`. -/
def UnaryDigits (n : Nat) (d : Int) (row : List (List Char)) : Prop :=
  row.length = n ∧ ∀ (i : Nat) (w : List Char), row[i]? = some w → w = (if d = (i : Int) then ['1'] else ['0'])

/-- The lines of a series: one for each time step, with the digits for the value of the variable `v`. -/
def UnaryLines (x : VarTexts) (v : Nat) (ts : TimeSeries) (rows : List (List (List Char))) : Prop :=
  rows.length = ts.length ∧ ∀ (t : Nat) row, rows[t]? = some row → UnaryDigits (x.card v) (ts.value v t) row

/-- **C79**, the claim about a set of series; `v` is the first variable observed in the first series. -/
def WritesUnary (x : VarTexts) (v : Nat) (set : List TimeSeries) : Prop :=
  ∃ names series, x.Named v names ∧ writeUnary x set = ok (0, some (dataText names series)) ∧ List.Forall₂ (UnaryLines x v) set series

/-- **C79** (partial).  The claim holds if `v` is the first variable observed in every series (as for series read from one file).  What is
missing: sets in which the series begin with different variables, for which it is false. -/
theorem C79_unary_partial {x : VarTexts} {v : Nat} {names : List (List Char)} (hx : x.Named v names) {set : List TimeSeries} (hne : set ≠ [])
    (h : ∀ ts ∈ set, ts.WellFormed ∧ ts.observed.Nodup ∧ ts.observed[0]? = some v) : WritesUnary x v set := by
  refine ⟨names, _, hx, writeUnary_eq hx hne h, ?_⟩
  rw [List.forall₂_map_right_iff, List.forall₂_same]
  intro ts hts
  obtain ⟨w1, w2, w3⟩ := h ts hts
  refine ⟨by rw [List.length_map, w1.rows], ?_⟩
  intro t row hr
  rw [List.getElem?_map] at hr
  obtain ⟨d, hd, rfl⟩ := Option.map_eq_some_iff.mp hr
  have hlen := w1.row d (List.mem_of_getElem? hd)
  have hval : ts.value v t = d.getD 0 (-1) := by
    unfold TimeSeries.value
    rw [hd]
    cases ho : ts.observed with
    | nil => rw [ho] at w3; cases w3
    | cons a l =>
      rw [ho] at w3 hlen
      cases d with
      | nil => simp at hlen
      | cons b d =>
        simp only [List.getElem?_cons_zero, Option.some.injEq] at w3
        subst w3
        simp
  rw [hval]
  refine ⟨by simp [unaryWords], ?_⟩
  intro i w hw
  unfold unaryWords at hw
  have hi : i < x.card v := by simpa using (List.getElem?_eq_some_iff.mp hw).1
  rw [List.getElem?_map, List.getElem?_range hi, Option.map_some, Option.some.injEq] at hw
  exact hw.symm

/-- No series, or nothing observed: the function refuses and writes nothing. -/
theorem C79_refused (x : VarTexts) {set : List TimeSeries} (h : ∀ ts ∈ set, ts.WellFormed ∧ ts.observed = []) : writeUnary x set = ok (EINVAL, none) := by
  unfold writeUnary
  by_cases h0 : set = []
  · rw [if_pos h0]
  · rw [if_neg h0]
    obtain ⟨U, e, _, hm⟩ := observedUnion_eq set (fun ts hts => ⟨(h ts hts).1, by rw [(h ts hts).2]; exact List.nodup_nil⟩)
    have hU : U = [] := by
      rw [List.eq_nil_iff_forall_not_mem]
      intro v hv
      obtain ⟨ts, hts, hv⟩ := (hm v).1 hv
      rw [(h ts hts).2] at hv
      cases hv
    rw [e, hU, ok_bind]
    rfl

theorem unaryLines_eq {x : VarTexts} {v : Nat} {ts : TimeSeries} {rows : List (List (List Char))} (h : UnaryLines x v ts rows) :
    rows = (List.range ts.length).map (fun t => unaryWords (x.card v) (ts.value v t)) := by
  apply List.ext_getElem (by simp [h.1])
  intro t h1 h2
  have ht := h.2 t _ (List.getElem?_eq_getElem h1)
  rw [List.getElem_map, List.getElem_range]
  apply List.ext_getElem (by simp [ht.1, unaryWords])
  intro i h3 h4
  rw [ht.2 i _ (List.getElem?_eq_getElem h3)]
  simp [unaryWords]

/-- A second series which observes another variable. -/
def otherSeries : TimeSeries where
  numVars := 3
  numHidden := 2
  hidden := [2, 3]
  numObserved := 1
  observed := [1]
  length := 1
  data := [[1]]

/-- **C79** is false for sets in which the series observe different variables: the value of another variable is written as that of the first.
Here `B` is not observed in the second series, but the state `yes` is marked. -/
theorem C79_refuted : ∃ (x : VarTexts) (set : List TimeSeries), (∀ ts ∈ set, ts.WellFormed ∧ ts.observed.Nodup ∧ ts.observed ≠ []) ∧ x.Model [1, 2, 3] ∧
    (set.head?.bind (fun ts => ts.observed[0]?)) = some 3 ∧ ¬ WritesUnary x 3 set := by
  refine ⟨hmmTexts, [sightings, otherSeries], ?_, hmmTexts_of.texts, rfl, ?_⟩
  · intro ts hts
    rcases List.mem_cons.1 hts with rfl | hts
    · exact ⟨sightings_wellFormed, by decide, by decide⟩
    · rw [List.mem_singleton.1 hts]
      exact ⟨⟨rfl, rfl, rfl, by decide⟩, by decide, by decide⟩
  · rintro ⟨names, series, h1, h2, h3⟩
    have hw : writeUnary hmmTexts [sightings, otherSeries] = ok (0, some "no,yes\n1,0\n0,0\n0,1\n\n0,1\n\n".toList) := by decide +kernel
    rw [h2] at hw
    cases h1.1
    have hs : series = [(List.range 3).map (fun t => unaryWords 2 (sightings.value 3 t)), (List.range 1).map (fun t => unaryWords 2 (otherSeries.value 3 t))] := by
      obtain ⟨a, l, g1, g2, rfl⟩ := List.forall₂_cons_left_iff.1 h3
      obtain ⟨b, l, g3, g4, rfl⟩ := List.forall₂_cons_left_iff.1 g2
      cases g4
      rw [unaryLines_eq g1, unaryLines_eq g3]
      rfl
    rw [hs] at hw
    revert hw
    decide +kernel

/-- The hypotheses of the partial theorem are met. -/
example : WritesUnary hmmTexts 3 [sightings, blankSeries] :=
  C79_unary_partial (names := ["no".toList, "yes".toList]) ⟨rfl, rfl⟩ (by simp) (by
    intro ts h
    exact ⟨(both_of ts h).1.wf, (both_of ts h).1.nodup, by revert ts; decide⟩)

example : writeUnary hmmTexts [sightings, blankSeries] = ok (0, some "no,yes\n1,0\n0,0\n0,1\n\n0,0\n\n".toList) := by decide +kernel

/-! ## C80 -/

variable {K S : Type} [Field K] [LinearOrder K]

/-- What is left of the claim if the last batch is too small: the program may do up to two iterations more than asked for, and three if none
are asked for. -/
def allowed (maxIterations : Int) : Nat :=
  if maxIterations ≤ 0 then 3
  else if maxIterations % 32 = 1 then maxIterations.toNat + 2
  else if maxIterations % 32 = 2 then maxIterations.toNat + 1
  else maxIterations.toNat

/-- **C80** (partial).  A run of `niptrain` with an empty learning curve consists of calls of `em_learn` with at most 32 iterations each; the
number of all iterations is at most `allowed`, and it is less than asked for only if one of the calls converged or failed.  What is missing: the
bound without the exceptions in `allowed`, which is false. -/
theorem C80_batches_partial (task : EmTask K S) (prepare : Bool → S → S) (fuel : Nat) (maxIterations : Int) (r r' : Run K S) (h0 : r.curve = [])
    (h : trainBatches task prepare fuel maxIterations r = ok (some r')) :
    r'.curve.length ≤ allowed maxIterations ∧
      ∃ es : List (EmResult K S), r'.curve = (es.map EmResult.curve).flatten ∧
        (∀ e ∈ es, ∃ (k : Int) (s : S), k ≤ 32 ∧ ({ task with maxIterations := k } : EmTask K S).em (max 3 k.toNat) s = ok e) ∧
        ((r'.curve.length : Int) < maxIterations → ∃ e ∈ es, e.criterion = some .delta ∨ e.code = NIP_ERROR_BAD_LUCK) := by
  obtain ⟨es, g1, g2, g3, g4⟩ := trainBatches_spec task prepare fuel maxIterations r r' h
  rw [h0, List.nil_append] at g1
  rw [g1]
  refine ⟨?_, es, rfl, g2, g4⟩
  unfold mostIterations at g3
  unfold allowed
  split_ifs at g3 ⊢ <;> omega

/-- **C80** for the limits for which it is true. -/
theorem C80_limit_partial (task : EmTask K S) (prepare : Bool → S → S) (fuel : Nat) (maxIterations : Int) (r r' : Run K S) (h0 : r.curve = [])
    (h : trainBatches task prepare fuel maxIterations r = ok (some r')) (hpos : 0 < maxIterations) (h1 : maxIterations % 32 ≠ 1)
    (h2 : maxIterations % 32 ≠ 2) : (r'.curve.length : Int) ≤ maxIterations := by
  have := (C80_batches_partial task prepare fuel maxIterations r r' h0 h).1
  unfold allowed at this
  rw [if_neg (by omega), if_neg h1, if_neg h2] at this
  omega

/-- Training that always improves. -/
def climbing : EmTask ℚ Nat where
  mStep := fun s => (0, s)
  eStep := fun _ s => (0, s + 1, (((s : ℚ) - 1000 : ℚ) : WithBot ℚ))
  uniform := id
  series := 1
  steps := 1
  maxIterations := 0
  threshold := 1 / 2
  low := -10000
  asserts := false

/-- The run from the beginning. -/
def startRun : Run ℚ Nat where
  code := 0
  criterion := .likelihood
  random := true
  curve := []
  state := 0

/-- The number of iterations of a run. -/
def iterationsDone (maxIterations : Int) : Res (Option Nat) := do
  let r ← trainBatches climbing (fun _ s => s) 5 maxIterations startRun
  ok (r.map (fun r => r.curve.length))

/-- **C80** is false: with a limit of 1 there are 3 iterations, with a limit of 33 there are 35. -/
theorem C80_refuted : ¬ ∀ (task : EmTask ℚ Nat) (prepare : Bool → Nat → Nat) (fuel : Nat) (maxIterations : Int) (r r' : Run ℚ Nat), r.curve = [] →
    0 < maxIterations → trainBatches task prepare fuel maxIterations r = ok (some r') → (r'.curve.length : Int) ≤ maxIterations := by
  intro hall
  have h1 : iterationsDone 33 = ok (some 35) := by decide +kernel
  unfold iterationsDone at h1
  cases hr : trainBatches climbing (fun _ s => s) 5 33 startRun with
  | ub => rw [hr] at h1; cases h1
  | ok r =>
    rw [hr, ok_bind] at h1
    cases r with
    | none => cases h1
    | some r =>
      simp only [Option.map_some, ok.injEq, Option.some.injEq] at h1
      have := hall _ _ _ _ _ r rfl (by decide) hr
      omega

example : iterationsDone 1 = ok (some 3) ∧ iterationsDone 33 = ok (some 35) ∧ iterationsDone 34 = ok (some 35) ∧ iterationsDone 40 = ok (some 40) ∧
    iterationsDone 0 = ok (some 3) := by decide +kernel

end Nip.Props
