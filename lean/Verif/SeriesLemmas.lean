import Mathlib.Data.List.Basic
import Mathlib.Data.List.Nodup
import Verif.Spec.Series

/-!
# Lemmas on time series
-/

namespace Nip

open Res

namespace TimeSeries

theorem place_spec (ts : TimeSeries) (h : (ts.numVars : Int) - ts.numHidden = ts.observed.length) (v : Nat) :
    (v ∈ ts.observed → ∃ j, ts.place v = ok (some j) ∧ ts.observed[j]? = some v ∧ ∀ k, j < k → ts.observed[k]? ≠ some v) ∧
      (v ∉ ts.observed → ts.place v = ok none) := by
  have key : ∀ n, n ≤ ts.observed.length → ∃ o, loop n (fun i (j : Option Nat) => do
      let u ← rd ts.observed i
      ok (if v == u then some i else j)) none = ok o ∧
      (∀ j, o = some j → ts.observed[j]? = some v ∧ ∀ k, j < k → k < n → ts.observed[k]? ≠ some v) ∧
      (o = none → ∀ k, k < n → ts.observed[k]? ≠ some v) := by
    intro n
    induction n with
    | zero => intro _; exact ⟨none, rfl, by simp, by simp⟩
    | succ n ih =>
      intro hn
      obtain ⟨o, h1, h2, h3⟩ := ih (by omega)
      have hlt : n < ts.observed.length := by omega
      rw [loop_succ, h1]
      simp only [ok_bind', rd_lt hlt, ok_bind]
      by_cases hv : v = ts.observed[n]
      · refine ⟨_, rfl, ?_, ?_⟩
        · intro j hj
          rw [if_pos (by simpa using hv)] at hj
          cases hj
          exact ⟨by rw [List.getElem?_eq_getElem hlt, hv], fun k hk1 hk2 => by omega⟩
        · intro hj
          rw [if_pos (by simpa using hv)] at hj
          cases hj
      · have hne : ts.observed[n]? ≠ some v := by
          rw [List.getElem?_eq_getElem hlt]
          intro e
          exact hv (Option.some.inj e).symm
        refine ⟨_, rfl, ?_, ?_⟩
        · intro j hj
          rw [if_neg (by simpa using hv)] at hj
          refine ⟨(h2 j hj).1, fun k hk1 hk2 => ?_⟩
          rcases Nat.lt_or_ge k n with hk | hk
          · exact (h2 j hj).2 k hk1 hk
          · have : k = n := by omega
            subst this; exact hne
        · intro hj k hk
          rw [if_neg (by simpa using hv)] at hj
          rcases Nat.lt_or_ge k n with hk' | hk'
          · exact h3 hj k hk'
          · have : k = n := by omega
            subst this; exact hne
  obtain ⟨o, h1, h2, h3⟩ := key ts.observed.length (Nat.le_refl _)
  have hp : ts.place v = ok o := by
    unfold place
    rw [h, Int.toNat_natCast]
    exact h1
  constructor
  · intro hv
    obtain ⟨k, hk, hkv⟩ := List.getElem_of_mem hv
    cases o with
    | none => exact absurd (by rw [List.getElem?_eq_getElem hk, hkv]) (h3 rfl k hk)
    | some j =>
      refine ⟨j, hp, (h2 j rfl).1, fun k hk => ?_⟩
      rcases Nat.lt_or_ge k ts.observed.length with hl | hl
      · exact (h2 j rfl).2 k hk hl
      · rw [List.getElem?_eq_none hl]; simp
  · intro hv
    cases o with
    | none => exact hp
    | some j => exact absurd (List.mem_of_getElem? (h2 j rfl).1) hv

end TimeSeries

theorem VarTexts.stateIndex_eq (x : VarTexts) (v : Nat) (names : List (List Char)) (h : x.Named v names) (s : List Char) :
    x.stateIndex v s = ok (if s ∈ names then (names.idxOf s : Int) else -1) := by
  unfold VarTexts.stateIndex
  rw [h.1]
  simp only
  have hf : ∀ k i, i + k = names.length → firstIdx (fun i => do
      let name ← rd names i
      ok (s == name)) i k = ok (if s ∈ names.drop i then some (i + (names.drop i).idxOf s) else none) := by
    intro k
    induction k with
    | zero =>
      intro i hi
      rw [List.drop_eq_nil_of_le (by omega)]
      simp [firstIdx]
    | succ k ih =>
      intro i hi
      have hlt : i < names.length := by omega
      unfold firstIdx
      rw [rd_lt hlt, List.drop_eq_getElem_cons hlt]
      simp only [ok_bind]
      by_cases hs : s = names[i]
      · rw [if_pos (by simpa using hs), if_pos (by simp [← hs]), hs, List.idxOf_cons_self]
        rfl
      · rw [if_neg (by simpa using hs), ih (i + 1) (by omega), List.idxOf_cons_ne _ (Ne.symm hs)]
        have e : s ∈ names[i] :: names.drop (i + 1) ↔ s ∈ names.drop (i + 1) := by rw [List.mem_cons]; simp only [hs, false_or]
        by_cases hm : s ∈ names.drop (i + 1)
        · rw [if_pos hm, if_pos (e.mpr hm)]
          congr 2
          omega
        · rw [if_neg hm, if_neg (fun h => hm (e.mp h))]
  rw [← h.2, hf names.length 0 (by omega), List.drop_zero]
  simp only [ok_bind]
  by_cases hm : s ∈ names
  · simp [hm]
  · simp [hm]

theorem VarTexts.stateName_eq (x : VarTexts) (v : Nat) (names : List (List Char)) (h : x.names v = some names) (i : Nat) (hi : i < names.length) :
    x.stateName v (i : Int) = ok names[i] := by
  unfold VarTexts.stateName
  rw [h]
  simp only
  rw [if_neg (by omega), Int.toNat_natCast, rd_lt hi]

end Nip
