import Mathlib.Data.Rat.Cast.Order
import Mathlib.Analysis.SpecialFunctions.Log.Basic
import Verif.EStep

/-!
# Networks with rational numbers as networks with other numbers

For the examples only: what has been shown for a network with rational tables holds when its numbers are taken as real numbers, for which there
are logarithms.
-/

namespace Nip

open Res Spec

set_option linter.unusedSectionVars false

variable (K : Type) [Field K] [LinearOrder K] [IsStrictOrderedRing K]

def Potential.castTo (p : Potential ℚ) : Potential K := { card := p.card, data := p.data.map (fun a : ℚ => (a : K)) }

def castParsed (q : Parsed ℚ) : Parsed K := { child := q.child, parents := q.parents, table := q.table.castTo K }

/-- the network with the same numbers -/
def castFile (f : NetFile ℚ) : NetFile K where
  vars := f.vars
  card := f.card
  next := f.next
  pots := f.pots.map (castParsed K)

theorem castTo_at (p : Potential ℚ) (idx : List Nat) : (p.castTo K).at' idx = ((p.at' idx : ℚ) : K) := by
  unfold Potential.at' Spec.cellOf Potential.castTo
  simp only [List.getD_eq_getElem?_getD, List.getElem?_map]
  cases p.data[position p.card idx]? <;> simp

theorem cast_getD (l : List ℚ) (i : Nat) : (l.map (fun a : ℚ => (a : K))).getD i 0 = ((l.getD i 0 : ℚ) : K) := by
  simp only [List.getD_eq_getElem?_getD, List.getElem?_map]
  cases l[i]? <;> simp

theorem cast_valid {f : NetFile ℚ} (h : f.Valid) : (castFile K f).Valid where
  sorted := h.sorted
  ids := h.ids
  states := h.states
  tables := by
    show f.pots.map _ ≠ []
    simpa using h.tables
  child := by
    intro q hq
    obtain ⟨q, hq', rfl⟩ := List.mem_map.mp hq
    exact h.child q hq'
  parents := by
    intro q hq
    obtain ⟨q, hq', rfl⟩ := List.mem_map.mp hq
    exact h.parents q hq'
  distinct := by
    show ((f.pots.map (castParsed K)).map _).Nodup
    rw [List.map_map]; exact h.distinct
  shape := by
    intro q hq
    obtain ⟨q, hq', rfl⟩ := List.mem_map.mp hq
    have := h.shape q hq'
    refine ⟨this.1, ?_⟩
    show (q.table.data.map _).length = _
    rw [List.length_map]; exact this.2
  nonneg := by
    intro q hq a ha
    obtain ⟨q, hq', rfl⟩ := List.mem_map.mp hq
    obtain ⟨b, hb, rfl⟩ := List.mem_map.mp ha
    exact Rat.cast_nonneg.mpr (h.nonneg q hq' b hb)

theorem cast_temporal {f : NetFile ℚ} (h : f.Temporal) : (castFile K f).Temporal where
  used := by
    intro v hv u hu
    obtain ⟨q, hq, e⟩ := h.used v hv u hu
    exact ⟨castParsed K q, List.mem_map_of_mem hq, e⟩
  states := h.states
  distinct := h.distinct

theorem cast_givens (f : NetFile ℚ) (v : Nat) : (castFile K f).givens v = f.givens v := by
  unfold NetFile.givens castFile
  simp only [List.find?_map]
  have : ((fun q : Parsed K => decide (q.child = v)) ∘ castParsed K) = fun q : Parsed ℚ => decide (q.child = v) := rfl
  rw [this]
  cases f.pots.find? (fun q => decide (q.child = v)) <;> rfl

theorem cast_prior (f : NetFile ℚ) (v : Nat) : (castFile K f).net.prior v = (f.net.prior v).map (fun a : ℚ => (a : K)) := by
  unfold NetFile.net castFile
  simp only [List.find?_map]
  have : ((fun q : Parsed K => decide (q.child = v)) ∘ castParsed K) = fun q : Parsed ℚ => decide (q.child = v) := rfl
  rw [this]
  cases f.pots.find? (fun q => decide (q.child = v)) with
  | none => simp
  | some q => rfl

theorem cast_roots (f : NetFile ℚ) : (castFile K f).net.roots = f.net.roots := by
  show f.vars.filter _ = f.vars.filter _
  apply List.filter_congr
  intro v _
  rw [decide_eq_decide]
  show (∀ q ∈ f.pots.map (castParsed K), _) ↔ _
  simp only [List.forall_mem_map]
  rfl

theorem cast_tables (f : NetFile ℚ) (x : Nat → Nat) : (castFile K f).net.tables x = ((f.net.tables x : ℚ) : K) := by
  show (((f.pots.map (castParsed K)).filter _).map _).prod = ((((f.pots.filter _).map _).prod : ℚ) : K)
  rw [List.filter_map, List.map_map]
  have h1 : ((fun q : Parsed K => decide (q.parents ≠ [])) ∘ castParsed K) = fun q : Parsed ℚ => decide (q.parents ≠ []) := rfl
  rw [h1]
  rw [show ((((f.pots.filter (fun q => decide (q.parents ≠ []))).map (fun q => f.entry q x)).prod : ℚ) : K) =
    (Rat.castHom K) ((f.pots.filter (fun q => decide (q.parents ≠ []))).map (fun q => f.entry q x)).prod from rfl, map_list_prod, List.map_map]
  congr 1
  apply List.map_congr_left
  intro q _
  exact castTo_at K q.table _

theorem cast_vision (card : Nat → Nat) (seen : Nat → Int) (v : Nat) : vision (K := K) card seen v = (vision (K := ℚ) card seen v).map (fun a : ℚ => (a : K)) := by
  unfold vision
  split
  · simp
  · unfold indicator
    rw [List.map_map]
    apply List.map_congr_left
    intro j _
    simp only [Function.comp]
    split <;> simp

theorem cast_usable (f : NetFile ℚ) (v : Nat) : Usable ((castFile K f).net.card v) ((castFile K f).net.prior v) ↔ Usable (f.net.card v) (f.net.prior v) := by
  unfold Usable
  rw [cast_prior]
  simp only [cast_getD, Rat.cast_pos]
  rfl

theorem cast_slice (f : NetFile ℚ) (first : Prop) (seen : Nat → Int) (x : Nat → Nat) :
    (castFile K f).sliceWeight first seen x = ((f.sliceWeight first seen x : ℚ) : K) := by
  classical
  unfold NetFile.sliceWeight weightOf
  rw [Rat.cast_mul, Rat.cast_mul, cast_tables, cast_roots]
  congr 1
  · congr 1
    rw [show ∀ l : List ℚ, ((l.prod : ℚ) : K) = (Rat.castHom K) l.prod from fun _ => rfl, map_list_prod, List.map_map]
    congr 1
    apply List.map_congr_left
    intro v _
    simp only [Function.comp]
    by_cases h : (first ∨ f.next v = none) ∧ Usable (f.net.card v) (f.net.prior v)
    · rw [if_pos h, if_pos (c := (first ∨ (castFile K f).next v = none) ∧ _) ⟨h.1, (cast_usable K f v).mpr h.2⟩, cast_prior, cast_getD]; rfl
    · rw [if_neg h, if_neg (c := (first ∨ (castFile K f).next v = none) ∧ _) (fun h' => h ⟨h'.1, (cast_usable K f v).mp h'.2⟩)]; simp
  · rw [show ∀ l : List ℚ, ((l.prod : ℚ) : K) = (Rat.castHom K) l.prod from fun _ => rfl, map_list_prod, List.map_map]
    congr 1
    apply List.map_congr_left
    intro v _
    show (vision (K := K) f.card seen v).getD _ _ = _
    rw [cast_vision, cast_getD]
    rfl

theorem cast_sumOver (card : Nat → Nat) (vs : List Nat) (F : Asg → ℚ) (x : Asg) :
    sumOver card vs (fun z => ((F z : ℚ) : K)) x = ((sumOver card vs F x : ℚ) : K) := by
  induction vs generalizing x with
  | nil => rfl
  | cons v vs ih =>
    simp only [sumOver]
    rw [Rat.cast_sum]
    exact Finset.sum_congr rfl fun i _ => ih _

theorem cast_sumSlices (card : Nat → Nat) (vars ss : List Nat) (F : (Nat → Nat → Nat) → ℚ) (X : Nat → Nat → Nat) :
    sumSlices card vars ss (fun Y => ((F Y : ℚ) : K)) X = ((sumSlices card vars ss F X : ℚ) : K) := by
  induction ss generalizing X with
  | nil => rfl
  | cons s ss ih =>
    simp only [sumSlices]
    rw [← cast_sumOver]
    exact sumOver_congr' fun x => ih _

theorem cast_total (f : NetFile ℚ) (seen : Nat → Nat → Int) (n : Nat) (P : (Nat → Nat → Nat) → Prop) :
    (castFile K f).unrolledTotal seen n P = ((f.unrolledTotal seen n P : ℚ) : K) := by
  classical
  unfold NetFile.unrolledTotal
  rw [← cast_sumSlices]
  show sumSlices f.card f.vars _ _ _ = _
  congr 1
  funext X
  have : (castFile K f).unrolledWeight seen n X = ((f.unrolledWeight seen n X : ℚ) : K) := by
    unfold NetFile.unrolledWeight
    have hl : (∀ s, s + 1 < n → (castFile K f).Linked (X s) (X (s + 1))) ↔ ∀ s, s + 1 < n → f.Linked (X s) (X (s + 1)) := Iff.rfl
    simp only [hl]
    split
    · rw [Rat.cast_prod]
      exact Finset.prod_congr rfl fun s _ => cast_slice K f _ _ _
    · simp
  rw [this]
  split <;> simp

theorem cast_counts {f : NetFile ℚ} {ps : List (Potential ℚ)} (h : CountTables f ps) : CountTables (castFile K f) (ps.map (Potential.castTo K)) where
  length := by rw [List.length_map]; exact h.length
  shape := by
    intro i v p hv hp
    rw [List.getElem?_map] at hp
    obtain ⟨q, hq, rfl⟩ := Option.map_eq_some_iff.mp hp
    have := h.shape i v q hv hq
    rw [cast_givens]
    refine ⟨this.1, ?_, this.2.2⟩
    show (q.data.map _).length = _
    rw [List.length_map]; exact this.2.1
  nonneg := by
    intro p hp a ha
    obtain ⟨q, hq, rfl⟩ := List.mem_map.mp hp
    obtain ⟨b, hb, rfl⟩ := List.mem_map.mp ha
    exact Rat.cast_nonneg.mpr (h.nonneg q hq b hb)

/-- natural logarithms -/
noncomputable def naturalLogs : Logs ℝ where
  log := Real.log
  lowest := -1000

theorem naturalLogs_law : naturalLogs.Law := fun a b ha hb => (Real.log_div ha.ne' hb.ne').symm

theorem naturalLogs_sane : ∀ a, 0 < a → a ≤ 1 → naturalLogs.log a ≤ 0 := fun _ ha h => Real.log_nonpos ha.le h

end Nip
