import Verif.Mlss
import Verif.Spec.Mlss
import Verif.Ascend

/-!
# Lemmas about `mlss`
-/

namespace Nip

open Res Spec

theorem asked_search (asked : List Nat) (v : Nat) :
    ∃ k, firstIdx (fun j => do let u ← rd asked j; ok (v == u)) 0 asked.length = ok k ∧ (k = none ↔ v ∉ asked) := by
  have h := firstIdx_eq (test := fun j => do let u ← rd asked j; ok (v == u)) (p := fun j => v == asked.getD j 0) 0 asked.length (by
    intro j _ hj
    have hj : j < asked.length := by omega
    rw [rd_lt hj, ok_bind, List.getD_eq_getElem _ _ hj])
  refine ⟨_, h, ?_⟩
  rw [List.find?_eq_none]
  constructor
  · intro hn hm
    obtain ⟨j, hj, e⟩ := List.getElem_of_mem hm
    refine hn j (by simpa using hj) ?_
    rw [List.getD_eq_getElem _ _ hj, e]
    simp
  · intro hm j hj hv
    have hj : j < asked.length := by simpa using hj
    rw [List.getD_eq_getElem _ _ hj] at hv
    exact hm (by rw [beq_iff_eq.1 hv]; exact List.getElem_mem _)

/-- The array of the variables not asked for: at most `n` of them, in order. -/
theorem mlssHidden_eq (vars asked : List Nat) (n : Nat) :
    ∃ l, mlssHidden vars asked n = ok (((vars.filter (· ∉ asked)).take n).map some ++ List.replicate (n - ((vars.filter (· ∉ asked)).take n).length) none, l) := by
  obtain ⟨⟨a, l⟩, h, ha, _⟩ := loop_inv (n := vars.length)
    (P := fun i (st : List (Option Nat) × Nat) =>
      st.1 = (((vars.take i).filter (· ∉ asked)).take n).map some ++ List.replicate (n - (((vars.take i).filter (· ∉ asked)).take n).length) none ∧
      st.2 = (((vars.take i).filter (· ∉ asked)).take n).length)
    (f := fun i (st : List (Option Nat) × Nat) =>
      if st.2 = n then ok st
      else do
        let v ← rd vars i
        let k ← firstIdx (fun j => do
          let u ← rd asked j
          ok (v == u)) 0 asked.length
        match k with
        | some _ => ok st
        | none => do
          let a ← wr st.1 st.2 (some v)
          ok (a, st.2 + 1)) (s := (List.replicate n none, 0)) (by simp) (by
    rintro i hi ⟨a, l⟩ ⟨ha, hl⟩
    simp only at ha hl
    subst ha
    have hs : vars.take (i + 1) = vars.take i ++ [vars[i]] := by rw [List.take_add_one, List.getElem?_eq_getElem hi]; rfl
    rw [hs, List.filter_append]
    generalize hF : (vars.take i).filter (· ∉ asked) = F at hl ⊢
    by_cases hn : l = n
    · refine ⟨_, if_pos hn, ?_⟩
      have hFn : n ≤ F.length := by rw [List.length_take] at hl; omega
      simp only
      rw [List.take_append_of_le_length hFn]
      exact ⟨rfl, hl⟩
    · have hFn : F.length < n := by
        rw [List.length_take] at hl
        omega
      have hlF : l = F.length := by rw [hl, List.length_take]; omega
      simp only
      rw [if_neg hn, rd_lt hi, ok_bind]
      obtain ⟨k, hk, hk'⟩ := asked_search asked vars[i]
      rw [hk, ok_bind]
      cases k with
      | some k =>
        have : ¬ vars[i] ∉ asked := fun h => by cases hk'.2 h
        refine ⟨_, rfl, ?_⟩
        rw [List.filter_cons_of_neg (by simpa using this), List.filter_nil, List.append_nil]
        exact ⟨rfl, hl⟩
      | none =>
        have : vars[i] ∉ asked := hk'.1 rfl
        rw [List.filter_cons_of_pos (by simpa using this), List.filter_nil, List.take_of_length_le (l := F) (by omega),
          List.take_of_length_le (l := F ++ [vars[i]]) (by simp; omega)]
        simp only
        rw [wr_lt (by simp; omega), ok_bind]
        refine ⟨_, rfl, ?_, by simp [hlF]⟩
        simp only
        obtain ⟨m, hm⟩ : ∃ m, n - F.length = m + 1 := ⟨n - F.length - 1, by omega⟩
        have hm' : n - (F ++ [vars[i]]).length = m := by simp; omega
        rw [hm, hm', List.replicate_succ, hlF, List.set_append_right _ _ (by simp)]
        simp)
  refine ⟨l, ?_⟩
  have h' : mlssHidden vars asked n = ok (a, l) := h
  simp only at ha
  rw [h', ha, List.take_length]

theorem filterMap_some_none (l : List Nat) (n : Nat) : (l.map some ++ List.replicate n none).filterMap id = l := by
  rw [List.filterMap_append]
  have : (List.replicate n (none : Option Nat)).filterMap id = [] := by
    induction n with
    | zero => rfl
    | succ n ih => rw [List.replicate_succ, List.filterMap_cons, ih]; rfl
  rw [this, List.append_nil]
  induction l with
  | nil => rfl
  | cons a l ih => rw [List.map_cons, List.filterMap_cons, ih]; rfl

variable {K : Type} [Field K] [LinearOrder K] [IsStrictOrderedRing K]

theorem unrolledWeight_nonneg {f : NetFile K} (hf : f.Valid) (seen : Nat → Nat → Int) (n : Nat) (X : Nat → Nat → Nat) : 0 ≤ f.unrolledWeight seen n X := by
  classical
  unfold NetFile.unrolledWeight
  split
  · exact Finset.prod_nonneg fun s _ => slice_nonneg hf seen s (X s)
  · exact le_refl _

theorem vision_clash (card : Nat → Nat) (seen : Nat → Int) (v i : Nat) (h0 : 0 ≤ seen v) (h : seen v ≠ i) : (vision (K := K) card seen v).getD i 0 = 0 := by
  unfold vision indicator
  rw [if_neg (not_lt.2 h0), List.getD_eq_getElem?_getD, List.getElem?_map]
  by_cases hi : i < card v
  · rw [List.getElem?_range hi]
    simp only [Option.map_some, Option.getD_some]
    exact if_neg (fun e => h e.symm)
  · rw [List.getElem?_eq_none (by simpa using hi)]
    rfl

/-- An assignment that is not as seen has no weight. -/
theorem unrolledWeight_clash {f : NetFile K} {seen : Nat → Nat → Int} {n t v : Nat} {X : Nat → Nat → Nat} (ht : t < n) (hv : v ∈ f.vars) (h0 : 0 ≤ seen t v)
    (h : seen t v ≠ X t v) : f.unrolledWeight seen n X = 0 := by
  classical
  unfold NetFile.unrolledWeight
  split
  · refine Finset.prod_eq_zero (Finset.mem_range.2 ht) ?_
    unfold NetFile.sliceWeight weightOf
    refine mul_eq_zero_of_right _ (List.prod_eq_zero ?_)
    exact List.mem_map.2 ⟨v, hv, vision_clash f.card (seen t) v (X t v) h0 h⟩
  · rfl

theorem sequenceWeight_clash {f : NetFile K} {seen : Nat → Nat → Int} {n t i v : Nat} {asked : List Nat} {data : List (List Int)} (ht : t < n) (hv : v ∈ f.vars)
    (hi : asked[i]? = some v) (h0 : 0 ≤ seen t v) (h : seen t v ≠ (data.getD t []).getD i (-1)) : f.sequenceWeight seen n asked data = 0 := by
  classical
  unfold NetFile.sequenceWeight NetFile.unrolledTotal
  refine Eq.trans (sumSlices_legal (G := fun _ => 0) fun Y _ _ => ?_) (sumSlices_zero (card := f.card) (vs := f.vars) (List.range n) (fun _ _ => 0))
  split
  · rename_i hY
    exact unrolledWeight_clash ht hv h0 (by rw [hY t ht i v hi]; exact h)
  · rfl

/-- a sequence of states from a function -/
def sequenceOf {n m M : Nat} (e : Fin n → Fin m → Fin M) : List (List Int) := List.ofFn (fun t => List.ofFn (fun i => ((e t i : Nat) : Int)))

theorem sequenceOf_getD {n m M : Nat} (e : Fin n → Fin m → Fin M) (t : Fin n) (i : Fin m) : ((sequenceOf e).getD t []).getD i (-1) = ((e t i : Nat) : Int) := by
  unfold sequenceOf
  simp

/-- What is possible is possible with some sequence of states. -/
theorem sequence_exists {f : NetFile K} (hf : f.Valid) (seen : Nat → Nat → Int) (n : Nat) (asked : List Nat) (ha : ∀ v ∈ asked, v ∈ f.vars)
    (hpos : f.unrolledTotal seen n (fun _ => True) ≠ 0) : ∃ data, 0 < f.sequenceWeight seen n asked data := by
  classical
  by_contra hno
  simp only [not_exists, not_lt] at hno
  refine hpos (le_antisymm ?_ ?_)
  · have hle : f.unrolledTotal seen n (fun _ => True) ≤
        ∑ e : Fin n → Fin asked.length → Fin (f.vars.map f.card).sum, f.sequenceWeight seen n asked (sequenceOf e) := by
      unfold NetFile.sequenceWeight NetFile.unrolledTotal
      rw [← sumSlices_sum]
      refine sumSlices_mono fun Y hY _ => ?_
      simp only [if_true]
      have hlt : ∀ (t : Fin n) (i : Fin asked.length), Y t asked[i] < (f.vars.map f.card).sum := by
        intro t i
        have h1 := ha asked[i] (List.getElem_mem _)
        have h2 := hY t (List.mem_range.2 t.2) asked[i] h1
        exact lt_of_lt_of_le h2 (List.single_le_sum (by simp) _ (List.mem_map.2 ⟨_, h1, rfl⟩))
      let e : Fin n → Fin asked.length → Fin (f.vars.map f.card).sum := fun t i => ⟨Y t asked[i], hlt t i⟩
      have he : Follows asked n (sequenceOf e) Y := by
        intro t ht i v hi
        have hl : i < asked.length := by
          by_contra hc
          rw [List.getElem?_eq_none (by omega)] at hi
          cases hi
        rw [List.getElem?_eq_getElem hl] at hi
        have := sequenceOf_getD e ⟨t, ht⟩ ⟨i, hl⟩
        simp only at this
        rw [this, ← Option.some.inj hi]
        rfl
      refine le_trans (le_of_eq ?_) (Finset.single_le_sum (f := fun e => if Follows asked n (sequenceOf e) Y then f.unrolledWeight seen n Y else 0) ?_ (Finset.mem_univ e))
      · simp only [if_pos he]
      · intro e _
        split
        · exact unrolledWeight_nonneg hf seen n Y
        · exact le_refl _
    exact hle.trans (Finset.sum_nonpos fun e _ => hno _)
  · unfold NetFile.unrolledTotal
    refine (sumSlices_zero (card := f.card) (vs := f.vars) (List.range n) (fun _ _ => 0)).symm.le.trans (sumSlices_mono fun Y _ _ => ?_)
    simp only [if_true]
    exact unrolledWeight_nonneg hf seen n Y

end Nip
