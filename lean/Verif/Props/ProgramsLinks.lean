import Verif.Props.Programs

/-!
# C75, C76, C81 without the conditions about links between time steps

The theorems of `Verif/Props/Programs.lean` ask that the links between the time steps make sense (`NetFile.Temporal`).  For all links to declared
variables with the same number of states the statements are false: the programs write beyond the ends of arrays.
-/

namespace Nip.Props

open Nip Res Spec

/-- The links between time steps lead to declared variables with the same number of states. -/
def Linkable {K : Type} (f : NetFile K) : Prop := ∀ v ∈ f.vars, ∀ u ∈ f.next v, u ∈ f.vars ∧ f.card u = f.card v

variable (K : Type) [Field K] [LinearOrder K] [IsStrictOrderedRing K]

/-- **C75** in full. -/
def C75_full : Prop := ∀ (ptr : Nat) (f : NetFile K), f.Valid → Linkable f → ∀ (x : VarTexts), TextsOf f x → ∀ (lg : Logs K) (fmt : K → List Char)
  (set : List TimeSeries), set ≠ [] → (∀ ts ∈ set, SeriesOf f ts) → ∀ v ∈ f.vars, ∀ names, x.Named v names →
    ∃ m s series, NetFile.parseModel ptr f = ok (some (m, s)) ∧
      nipinference lg fmt x s f.vars (x.symbol v) set m = ok (0, some (dataText names series)) ∧
      List.Forall₂ (SmoothedLines f fmt v) set series

/-- **C76** in full. -/
def C76_full : Prop := ∀ (ptr : Nat) (f : NetFile K), f.Valid → Linkable f → ∀ (x : VarTexts), TextsOf f x → ∀ (ts : TimeSeries) (rest : List TimeSeries),
  (∀ t ∈ ts :: rest, SeriesOf f t ∧ HiddenOf f t) →
    ∃ m s series, NetFile.parseModel ptr f = ok (some (m, s)) ∧
      nipmap x s (ts :: rest) m = ok (0, some (dataText (ts.hidden.map x.symbol) series)) ∧
      List.Forall₂ (MostProbable f x) (ts :: rest) series

/-- **C81** in full. -/
def C81_full : Prop := ∀ (ptr : Nat) (f : NetFile K), f.Valid → Linkable f → ∀ (x : VarTexts), TextsOf f x → ∀ (lg : Logs K) (fmt : K → List Char)
  (set : List TimeSeries), set ≠ [] → (∀ ts ∈ set, SeriesOf f ts) → ∀ v ∈ f.vars, ∀ names, x.Named v names →
    ∃ m s rows, NetFile.parseModel ptr f = ok (some (m, s)) ∧
      nipnext lg fmt x s f.vars (x.symbol v) set m = ok (0, line names ++ (rows.map line).flatten) ∧
      List.Forall₂ (LastLine f lg fmt v) (set.filter (fun ts => decide (0 < ts.length))) rows

theorem shared_linkable : Linkable shared := by
  intro v _ u hu
  have : u = 1 := by
    have hu : shared.next v = some u := hu
    simp only [shared] at hu
    split_ifs at hu
    cases hu; rfl
  rw [this]
  exact ⟨by decide, rfl⟩

theorem shared_ub : NetFile.parseModel 8 shared = ub := by
  have : (NetFile.parseModel 8 shared >>= fun _ => ok ()) = (ub : Res Unit) := by decide +kernel
  cases e : NetFile.parseModel 8 shared with
  | ub => rfl
  | ok r => rw [e] at this; cases this

theorem shared_texts : TextsOf shared hmmTexts where
  texts := ⟨by decide, by decide, fun _ _ => ⟨_, rfl, rfl⟩⟩
  card := fun _ _ => rfl

/-- A series of one time step in which nothing is seen. -/
theorem shared_blank : SeriesOf shared blankSeries ∧ HiddenOf shared blankSeries := ⟨⟨⟨rfl, rfl, rfl, by decide⟩, by decide, by decide⟩, by decide, by decide, by decide⟩

/-- **C75** in full is false: with two variables that stand for the same variable of the step before, `parse_model` writes beyond the end of an array
(`C53_shared_next_refuted`) before anything is read or written. -/
theorem C75_refuted : ¬ C75_full ℚ := by
  intro h
  obtain ⟨m, s, _, e, _⟩ := h 8 shared shared_valid shared_linkable hmmTexts shared_texts exponents halves [blankSeries] (by simp)
    (by simpa using shared_blank.1) 1 (by decide) _ ⟨rfl, rfl⟩
  rw [shared_ub] at e
  cases e

/-- **C76** in full is false for the same reason. -/
theorem C76_refuted : ¬ C76_full ℚ := by
  intro h
  obtain ⟨m, s, _, e, _⟩ := h 8 shared shared_valid shared_linkable hmmTexts shared_texts blankSeries [] (by simpa using shared_blank)
  rw [shared_ub] at e
  cases e

/-- **C81** in full is false for the same reason. -/
theorem C81_refuted : ¬ C81_full ℚ := by
  intro h
  obtain ⟨m, s, _, e, _⟩ := h 8 shared shared_valid shared_linkable hmmTexts shared_texts exponents halves [blankSeries] (by simp)
    (by simpa using shared_blank.1) 1 (by decide) _ ⟨rfl, rfl⟩
  rw [shared_ub] at e
  cases e

end Nip.Props
