import Verif.Sem
import Verif.Spec.Unrolled

/-! # Sums over the assignments of an unrolled network -/

namespace Nip

open Res Spec

set_option linter.unusedSectionVars false

variable {K : Type} [Field K] [LinearOrder K] [IsStrictOrderedRing K]

theorem sumOver_sum {ι : Type} {card : Nat → Nat} (vs : List Nat) (s : Finset ι) (F : ι → Asg → K) (x : Asg) :
    sumOver card vs (fun z => ∑ i ∈ s, F i z) x = ∑ i ∈ s, sumOver card vs (F i) x := by
  induction vs generalizing x with
  | nil => rfl
  | cons v vs ih =>
    simp only [sumOver, ih]
    exact Finset.sum_comm

theorem sumOver_comm {card : Nat → Nat} (vs ws : List Nat) (F : Asg → Asg → K) (a b : Asg) :
    sumOver card vs (fun z => sumOver card ws (F z) b) a = sumOver card ws (fun x => sumOver card vs (fun z => F z x) a) b := by
  induction vs generalizing a with
  | nil => rfl
  | cons v vs ih =>
    simp only [sumOver, ih]
    exact (sumOver_sum ws _ (fun i x => sumOver card vs (fun z => F z x) (Function.update a v i)) b).symm

theorem sumOver_const_mul {card : Nat → Nat} (vs : List Nat) (c : K) (F : Asg → K) (a : Asg) :
    sumOver card vs (fun z => c * F z) a = c * sumOver card vs F a :=
  sumOver_mul_left (g := fun _ => c) (fun _ _ _ _ => rfl) a

theorem sumOver_mul_const {card : Nat → Nat} (vs : List Nat) (c : K) (F : Asg → K) (a : Asg) :
    sumOver card vs (fun z => F z * c) a = sumOver card vs F a * c :=
  sumOver_mul_right (g := fun _ => c) (fun _ _ _ _ => rfl) a

/-- a sum in which everything is determined -/
theorem sumOver_point {card : Nat → Nat} {B : List Nat} (hB : B.Nodup) {y : Asg} (hy : ∀ u ∈ B, y u < card u) (H : Asg → K) (x : Asg) :
    sumOver card B (fun z => if ∀ u ∈ B, z u = y u then H z else 0) x = H (fun u => if u ∈ B then y u else x u) := by
  induction B generalizing H x with
  | nil => simp [sumOver]
  | cons v B ih =>
    obtain ⟨n1, n2⟩ := List.nodup_cons.mp hB
    simp only [sumOver]
    rw [Finset.sum_eq_single (y v)]
    · rw [sumOver_congr (g := fun z => if ∀ u ∈ B, z u = y u then H z else 0), ih n2 (fun u hu => hy u (List.mem_cons_of_mem _ hu))]
      · congr 1
        funext u
        by_cases e : u = v
        · subst e; simp [n1]
        · simp [e]
      · intro z hz
        have : z v = y v := by rw [hz v n1]; simp
        simp [this]
    · intro i _ hi
      refine sumOver_eq_zero fun z hz => ?_
      rw [if_neg]
      intro h
      have h1 := h v (List.mem_cons_self ..)
      rw [hz v n1, Function.update_self] at h1
      exact hi h1
    · intro h
      exact absurd (Finset.mem_range.mpr (hy v (List.mem_cons_self ..))) h

/-- summing out the other variables is summing over all assignments with the given states -/
theorem sumOver_fix {card : Nat → Nat} {V B : List Nat} (hV : V.Nodup) (hB : B.Nodup) (hsub : ∀ u ∈ B, u ∈ V) {y : Asg} (hy : ∀ u ∈ B, y u < card u)
    (h0 : ∀ u, u ∉ B → y u = 0) (h : Asg → K) :
    sumOver card (V.filter (· ∉ B)) h y = sumOver card V (fun z => if ∀ u ∈ B, z u = y u then h z else 0) (fun _ => 0) := by
  have hp : V.Perm (B ++ V.filter (· ∉ B)) := by
    rw [List.perm_ext_iff_of_nodup hV]
    · intro u
      simp only [List.mem_append, List.mem_filter, decide_eq_true_eq]
      constructor
      · intro hu
        by_cases e : u ∈ B
        · exact Or.inl e
        · exact Or.inr ⟨hu, e⟩
      · rintro (hu | hu)
        · exact hsub u hu
        · exact hu.1
    · rw [List.nodup_append]
      refine ⟨hB, hV.filter _, ?_⟩
      rintro a ha b hb rfl
      simp at hb
      exact hb.2 ha
  rw [sumOver_perm hp, sumOver_append]
  have hin : sumOver card B (sumOver card (V.filter (· ∉ B)) fun z => if ∀ u ∈ B, z u = y u then h z else 0) (fun _ => 0) =
      sumOver card B (fun z => if ∀ u ∈ B, z u = y u then sumOver card (V.filter (· ∉ B)) h z else 0) (fun _ => 0) := by
    refine sumOver_congr' ?_
    intro z
    have hz : ∀ z' : Asg, (∀ w, w ∉ V.filter (· ∉ B) → z' w = z w) → ((∀ u ∈ B, z' u = y u) ↔ ∀ u ∈ B, z u = y u) := by
      intro z' hz'
      refine forall₂_congr fun u hu => ?_
      rw [hz' u (by simp [hu])]
    by_cases hc : ∀ u ∈ B, z u = y u
    · rw [if_pos hc]
      exact sumOver_congr fun z' hz' => if_pos ((hz z' hz').mpr hc)
    · rw [if_neg hc]
      exact sumOver_eq_zero fun z' hz' => if_neg (fun h => hc ((hz z' hz').mp h))
  rw [hin]
  · rw [sumOver_point hB hy]
    congr 1
    funext u
    split
    · rfl
    · rename_i hu; exact h0 u hu

theorem sumSlices_append {card : Nat → Nat} {vs : List Nat} (l1 l2 : List Nat) (F : (Nat → Nat → Nat) → K) (X : Nat → Nat → Nat) :
    sumSlices card vs (l1 ++ l2) F X = sumSlices card vs l1 (sumSlices card vs l2 F) X := by
  induction l1 generalizing X with
  | nil => rfl
  | cons s ss ih => simp only [List.cons_append, sumSlices, ih]

theorem sumSlices_congr {card : Nat → Nat} {vs : List Nat} {l : List Nat} {F G : (Nat → Nat → Nat) → K} (h : ∀ X, F X = G X) (X : Nat → Nat → Nat) :
    sumSlices card vs l F X = sumSlices card vs l G X := by
  have : F = G := funext h
  rw [this]

theorem sumSlices_mul_left {card : Nat → Nat} {vs : List Nat} {l : List Nat} {g F : (Nat → Nat → Nat) → K} (hg : ∀ s ∈ l, ∀ X x, g (Function.update X s x) = g X)
    (X : Nat → Nat → Nat) : sumSlices card vs l (fun X => g X * F X) X = g X * sumSlices card vs l F X := by
  induction l generalizing X with
  | nil => rfl
  | cons s ss ih =>
    simp only [sumSlices]
    rw [← sumOver_const_mul]
    refine sumOver_congr' fun x => ?_
    rw [ih (fun s' h' => hg s' (List.mem_cons_of_mem _ h')), hg s (List.mem_cons_self ..)]

variable (f : NetFile K) (seen : Nat → Nat → Int)

/-- weight of one slice -/
noncomputable def slice (s : Nat) (x : Asg) : K := f.sliceWeight (s = 0) (seen s) x

open Classical in
/-- weight of one slice and its link to the slice before -/
noncomputable def term (s : Nat) (X : Nat → Nat → Nat) : K := if 0 < s → f.Linked (X (s - 1)) (X s) then slice f seen s (X s) else 0

open Classical in
/-- what the slices before `t` say about slice `t` -/
noncomputable def fwd : Nat → Asg → K
  | 0, _ => 1
  | t + 1, y => sumOver f.card f.vars (fun x => if f.Linked x y then slice f seen t x * fwd t x else 0) (fun _ => 0)

open Classical in
/-- what `k` slices after slice `t` say about slice `t` -/
noncomputable def bwd : Nat → Nat → Asg → K
  | 0, _, _ => 1
  | k + 1, t, x => sumOver f.card f.vars (fun z => if f.Linked x z then slice f seen (t + 1) z * bwd k (t + 1) z else 0) (fun _ => 0)

theorem unrolledWeight_eq (n : Nat) (X : Nat → Nat → Nat) : f.unrolledWeight seen n X = ∏ s ∈ Finset.range n, term f seen s X := by
  unfold NetFile.unrolledWeight
  split
  · rename_i h
    refine Finset.prod_congr rfl fun s hs => ?_
    unfold term
    rw [if_pos]
    · rfl
    · intro h0
      have := h (s - 1) (by have := Finset.mem_range.mp hs; omega)
      rwa [Nat.sub_add_cancel h0] at this
  · rename_i h
    push Not at h
    obtain ⟨s, hs, hl⟩ := h
    rw [Finset.prod_eq_zero (Finset.mem_range.mpr hs)]
    unfold term
    rw [if_neg]
    intro h
    exact hl (by simpa using h (by omega))

theorem term_update_of_lt {s t : Nat} (h : s < t) (X : Nat → Nat → Nat) (x : Asg) : term f seen s (Function.update X t x) = term f seen s X := by
  unfold term
  rw [Function.update_of_ne (by omega), Function.update_of_ne (by omega)]

open Classical in
/-- the slices before `t` summed out -/
theorem sum_before (t : Nat) (h : Asg → K) (X0 : Nat → Nat → Nat) :
    sumSlices f.card f.vars (List.range t) (fun X => (∏ s ∈ Finset.range t, term f seen s X) *
      sumOver f.card f.vars (fun x => if 0 < t → f.Linked (X (t - 1)) x then h x else 0) (fun _ => 0)) X0 =
    sumOver f.card f.vars (fun x => h x * fwd f seen t x) (fun _ => 0) := by
  induction t generalizing h X0 with
  | zero => simp [sumSlices, fwd]
  | succ t ih =>
    rw [List.range_succ, sumSlices_append]
    have := ih (fun z => slice f seen t z * sumOver f.card f.vars (fun x => if f.Linked z x then h x else 0) (fun _ => 0)) X0
    refine Eq.trans (sumSlices_congr (fun X => ?_) X0) (this.trans ?_)
    · simp only [sumSlices]
      rw [← sumOver_const_mul]
      refine sumOver_congr' fun z => ?_
      rw [Finset.prod_range_succ]
      rw [Finset.prod_congr rfl (fun s hs => term_update_of_lt f seen (Finset.mem_range.mp hs) X z)]
      rw [mul_assoc]
      congr 1
      unfold term
      simp only [Function.update_self, Nat.succ_pos, forall_const, Nat.add_sub_cancel]
      by_cases h0 : 0 < t
      · rw [Function.update_of_ne (show t - 1 ≠ t by omega)]
        split <;> simp
      · simp [h0]
    · rw [sumOver_congr' (g := fun z => sumOver f.card f.vars (fun x => if f.Linked z x then h x * (slice f seen t z * fwd f seen t z) else 0) (fun _ => 0))]
      · rw [sumOver_comm]
        refine sumOver_congr' fun x => ?_
        rw [fwd, ← sumOver_const_mul]
        refine sumOver_congr' fun z => ?_
        split <;> simp
      · intro z
        rw [mul_assoc, mul_comm (sumOver _ _ _ _), ← mul_assoc, ← sumOver_const_mul]
        refine sumOver_congr' fun x => ?_
        split
        · ring
        · simp

/-- the slices after `t` summed out -/
theorem sum_after (k t : Nat) (X0 : Nat → Nat → Nat) :
    sumSlices f.card f.vars (List.range' (t + 1) k) (fun X => ∏ s ∈ Finset.range k, term f seen (t + 1 + s) X) X0 = bwd f seen k t (X0 t) := by
  classical
  induction k generalizing t X0 with
  | zero => simp [sumSlices, bwd]
  | succ k ih =>
    rw [List.range'_succ]
    simp only [sumSlices, bwd]
    refine sumOver_congr' fun z => ?_
    have hsplit : ∀ X, (∏ s ∈ Finset.range (k + 1), term f seen (t + 1 + s) X) = term f seen (t + 1) X * ∏ s ∈ Finset.range k, term f seen (t + 1 + 1 + s) X := by
      intro X
      rw [Finset.prod_range_succ', mul_comm]
      congr 1
      refine Finset.prod_congr rfl fun s _ => ?_
      congr 1; omega
    rw [sumSlices_congr hsplit, sumSlices_mul_left, ih]
    · unfold term
      simp only [Nat.succ_pos, forall_const, Nat.add_sub_cancel, Function.update_self]
      rw [Function.update_of_ne (show t ≠ t + 1 by omega)]
      split <;> simp
    · intro s hs X x
      rw [List.mem_range'_1] at hs
      exact term_update_of_lt f seen (by omega) X x

open Classical in
/-- all slices but slice `t` summed out -/
theorem unrolledTotal_eq (t k : Nat) (P : Asg → Prop) :
    f.unrolledTotal seen (t + 1 + k) (fun X => P (X t)) =
      sumOver f.card f.vars (fun x => if P x then slice f seen t x * fwd f seen t x * bwd f seen k t x else 0) (fun _ => 0) := by
  unfold NetFile.unrolledTotal
  have hr : List.range (t + 1 + k) = List.range t ++ (t :: List.range' (t + 1) k) := by
    rw [List.range_eq_range', List.range_eq_range', ← List.range'_succ, show t + 1 + k = t + (k + 1) by omega, ← List.range'_append_1]
    simp
  rw [hr, sumSlices_append]
  have := sum_before f seen t (fun x => if P x then slice f seen t x * bwd f seen k t x else 0) (fun _ _ => 0)
  refine Eq.trans (sumSlices_congr (fun X => ?_) _) (this.trans ?_)
  · simp only [sumSlices]
    rw [← sumOver_const_mul]
    refine sumOver_congr' fun x => ?_
    have hsplit : ∀ X, (if P (X t) then f.unrolledWeight seen (t + 1 + k) X else 0) =
        ((if P (X t) then ∏ s ∈ Finset.range (t + 1), term f seen s X else 0) * ∏ s ∈ Finset.range k, term f seen (t + 1 + s) X) := by
      intro X
      rw [unrolledWeight_eq, Finset.prod_range_add]
      split <;> simp
    rw [sumSlices_congr hsplit, sumSlices_mul_left, sum_after]
    · simp only [Function.update_self]
      rw [Finset.prod_range_succ, Finset.prod_congr rfl (fun s hs => term_update_of_lt f seen (Finset.mem_range.mp hs) X x)]
      unfold term
      simp only [Function.update_self]
      by_cases h0 : 0 < t
      · rw [Function.update_of_ne (show t - 1 ≠ t by omega)]
        by_cases hP : P x <;> by_cases hL : f.Linked (X (t - 1)) x <;> simp [hP, hL, h0]
        ring
      · by_cases hP : P x <;> simp [hP, h0]
        ring
    · intro s hs X x
      rw [List.mem_range'_1] at hs
      rw [Function.update_of_ne (by omega)]
      split
      · exact Finset.prod_congr rfl fun s' hs' => term_update_of_lt f seen (by have := Finset.mem_range.mp hs'; omega) X x
      · rfl
  · refine sumOver_congr' fun x => ?_
    split
    · ring
    · simp

end Nip
