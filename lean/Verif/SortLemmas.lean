import Verif.Triangulate
import Mathlib.Data.Finset.Sort
import Mathlib.Data.List.GetD
import Mathlib.Tactic.Common
import Mathlib.Tactic.Linarith

/-! # Lemmas about the ordering of the variables of cliques -/

namespace Nip

open Res

/-- strictly increasing enumeration -/
def SortedOf (vars S : List Nat) : Prop := S.Perm vars ∧ S.Pairwise (· < ·)

theorem exists_sortedOf (vars : List Nat) (h : vars.Nodup) : ∃ S, SortedOf vars S := by
  refine ⟨vars.toFinset.sort (· ≤ ·), ?_, (Finset.sortedLT_sort _).pairwise⟩
  rw [List.perm_ext_iff_of_nodup (Finset.sort_nodup _ _) h]
  simp

theorem sortedOf_unique {vars S : List Nat} (h : SortedOf vars S) : S = vars.toFinset.sort (· ≤ ·) := by
  have hn : S.Nodup := h.2.imp (fun h => Nat.ne_of_lt h)
  apply List.Perm.eq_of_pairwise (le := (· ≤ ·)) (fun a b _ _ h1 h2 => Nat.le_antisymm h1 h2) (h.2.imp Nat.le_of_lt)
    (Finset.pairwise_sort _ _)
  rw [List.perm_ext_iff_of_nodup hn (Finset.sort_nodup _ _)]
  intro a; simp [h.1.mem_iff]

/-- number of smaller elements = position in the sorted list -/
theorem count_smaller {S : List Nat} (h : S.Pairwise (· < ·)) (k : Nat) (hk : k < S.length) :
    (S.filter (· < S[k])).length = k := by
  have : S.filter (· < S[k]) = S.take k := by
    have hsplit : S.filter (· < S[k]) = (S.take k ++ S.drop k).filter (· < S[k]) := by rw [List.take_append_drop]
    rw [hsplit, List.filter_append]
    have hp := List.pairwise_iff_getElem.mp h
    have h1 : (S.take k).filter (· < S[k]) = S.take k := by
      rw [List.filter_eq_self]
      intro a ha
      obtain ⟨i, hi, rfl⟩ := List.getElem_of_mem ha
      simp only [List.length_take] at hi
      simp only [List.getElem_take, decide_eq_true_eq]
      exact hp i k (by omega) hk (by omega)
    have h2 : (S.drop k).filter (· < S[k]) = [] := by
      rw [List.filter_eq_nil_iff]
      intro a ha
      obtain ⟨i, hi, rfl⟩ := List.getElem_of_mem ha
      simp only [List.length_drop] at hi
      simp only [List.getElem_drop, decide_eq_true_eq, Nat.not_lt]
      rcases Nat.eq_zero_or_pos i with rfl | h0
      · simp
      · exact Nat.le_of_lt (hp k (k + i) hk (by omega) (by omega))
    rw [h1, h2, List.append_nil]
  rw [this, List.length_take]; omega

/-- the counting loops -/
theorem countLoop_eq (vars : List Nat) :
    loop vars.length (fun i ind => do
      let temp ← rd vars i
      loop vars.length (fun j ind => do
        let y ← rd vars j
        if y > temp then do
          let c ← rd ind j
          wr ind j (c + 1)
        else ok ind) ind) (List.replicate vars.length 0) =
    ok (vars.map (fun y => (vars.filter (· < y)).length)) := by
  obtain ⟨r, hr, hP⟩ := loop_inv (n := vars.length) (f := fun i (ind : List Nat) => do
      let temp ← rd vars i
      loop vars.length (fun j ind => do
        let y ← rd vars j
        if y > temp then do
          let c ← rd ind j
          wr ind j (c + 1)
        else ok ind) ind) (s := List.replicate vars.length 0)
    (fun i ind => ind = vars.map (fun y => ((vars.take i).filter (· < y)).length))
    (by simp [List.map_const'])
    (by
      rintro i hi ind rfl
      rw [rd_lt hi]
      simp only [ok_bind]
      obtain ⟨ind', h1, hlen, h2⟩ := loop_inv (n := vars.length) (f := fun j (ind : List Nat) => do
          let y ← rd vars j
          if y > vars[i] then do
            let c ← rd ind j
            wr ind j (c + 1)
          else ok ind) (s := vars.map (fun y => ((vars.take i).filter (· < y)).length))
        (fun j ind => ind.length = vars.length ∧ ∀ k (hk : k < vars.length), ind[k]? =
          some (((vars.take i).filter (· < vars[k])).length + if k < j ∧ vars[i] < vars[k] then 1 else 0))
        ⟨by simp, by intro k hk; simp [hk]⟩
        (by
          rintro j hj ind ⟨hl, hind⟩
          rw [rd_lt hj]
          simp only [ok_bind]
          by_cases hgt : vars[j] > vars[i]
          · rw [if_pos hgt, rd_eq_ok.mpr (hind j hj), ok_bind, wr_lt (by omega)]
            refine ⟨_, rfl, by simpa using hl, ?_⟩
            intro k hk
            rw [List.getElem?_set]
            by_cases hjk : j = k
            · subst hjk
              rw [if_pos rfl, if_pos (by omega)]
              simp [hgt]
            · rw [if_neg hjk, hind k hk]
              have : (k < j + 1 ∧ vars[i] < vars[k]) ↔ (k < j ∧ vars[i] < vars[k]) := by
                constructor <;> rintro ⟨a, b⟩ <;> exact ⟨by omega, b⟩
              simp only [this]
          · rw [if_neg hgt]
            refine ⟨_, rfl, hl, ?_⟩
            intro k hk
            rw [hind k hk]
            have : (k < j + 1 ∧ vars[i] < vars[k]) ↔ (k < j ∧ vars[i] < vars[k]) := by
              constructor
              · rintro ⟨a, b⟩
                refine ⟨?_, b⟩
                by_contra hc
                have : k = j := by omega
                subst this; exact hgt b
              · rintro ⟨a, b⟩; exact ⟨by omega, b⟩
            simp only [this])
      refine ⟨ind', h1, ?_⟩
      apply List.ext_getElem?
      intro k
      by_cases hk : k < vars.length
      · rw [h2 k hk]
        simp only [List.getElem?_map, List.getElem?_eq_getElem hk, Option.map_some]
        congr 1
        rw [List.take_succ_eq_append_getElem hi, List.filter_append, List.length_append]
        congr 1
        by_cases hlt : vars[i] < vars[k] <;> simp [hlt, hk]
      · rw [List.getElem?_eq_none (by omega), List.getElem?_eq_none (by simp; omega)])
  rw [hr, hP, List.take_length]

/-- the inverse permutation -/
theorem inverseLoop_eq (vars S : List Nat) (h : SortedOf vars S) :
    ∃ r, loop vars.length (fun i r => do
      let k ← rd (vars.map (fun y => (vars.filter (· < y)).length)) i
      wr r k i) (List.replicate vars.length 0) = ok r ∧ r.length = vars.length ∧
      (∀ k (hk : k < S.length), ∃ j : Nat, r[k]? = some j ∧ vars[j]? = some S[k]) := by
  have hlen : S.length = vars.length := h.1.length_eq
  have hn : vars.Nodup := h.1.nodup_iff.mp (h.2.imp (fun h => Nat.ne_of_lt h))
  have hSn : S.Nodup := h.2.imp (fun h => Nat.ne_of_lt h)
  have hrank : ∀ k (hk : k < S.length), (vars.filter (· < S[k])).length = k := by
    intro k hk
    exact ((h.1.filter _).length_eq).symm.trans (count_smaller h.2 k hk)
  obtain ⟨r, hr, hl, hP⟩ := loop_inv (n := vars.length) (f := fun i (r : List Nat) => do
      let k ← rd (vars.map (fun y => (vars.filter (· < y)).length)) i
      wr r k i) (s := List.replicate vars.length 0)
    (fun i (r : List Nat) => r.length = vars.length ∧ ∀ k (hk : k < S.length) (j : Nat), j < i → vars[j]? = some S[k] → r[k]? = some j)
    ⟨by simp, by intro k hk j hj; omega⟩
    (by
      rintro i hi r ⟨hl, hr⟩
      obtain ⟨k0, hk0, hS⟩ := List.getElem_of_mem (h.1.symm.subset (List.getElem_mem hi))
      have hri : rd (vars.map (fun y => (vars.filter (· < y)).length)) i = ok k0 := by
        rw [rd_eq_ok, List.getElem?_map, List.getElem?_eq_getElem hi, Option.map_some, ← hS, hrank k0 hk0]
      rw [hri, ok_bind, wr_lt (by omega)]
      refine ⟨_, rfl, by simpa using hl, ?_⟩
      intro k hk j hj hv
      rw [List.getElem?_set]
      by_cases hki : k0 = k
      · subst hki
        rw [if_pos rfl, if_pos (by omega)]
        rw [hS] at hv
        rw [(List.getElem?_inj hi hn).mp ((List.getElem?_eq_getElem hi).trans hv.symm)]
      · rw [if_neg hki]
        apply hr k hk j _ hv
        rcases Nat.lt_or_ge j i with h1 | h1
        · exact h1
        · exfalso
          have : j = i := by omega
          subst this
          rw [List.getElem?_eq_getElem hi, ← hS] at hv
          apply hki
          have := Option.some.inj hv
          exact (List.Nodup.getElem_inj_iff hSn).mp this)
  refine ⟨r, hr, hl, ?_⟩
  intro k hk
  obtain ⟨j, hj, he⟩ := List.getElem_of_mem (h.1.subset (List.getElem_mem hk))
  exact ⟨j, hP k hk j hj (by rw [List.getElem?_eq_getElem hj, he]), by rw [List.getElem?_eq_getElem hj, he]⟩

theorem sortClique_eq (vars S : List Nat) (h : SortedOf vars S) : sortClique vars = ok S := by
  have hlen : S.length = vars.length := h.1.length_eq
  unfold sortClique
  rw [countLoop_eq, ok_bind]
  obtain ⟨r, hr, hl, hP⟩ := inverseLoop_eq vars S h
  rw [hr, ok_bind]
  obtain ⟨out, ho, hlo, hQ⟩ := loop_inv (n := vars.length) (f := fun i (out : List Nat) => do
      let k ← rd r i
      let v ← rd vars k
      wr out i v) (s := List.replicate vars.length 0)
    (fun i (out : List Nat) => out.length = vars.length ∧ ∀ k (hk : k < S.length), k < i → out[k]? = some S[k])
    ⟨by simp, by intro k hk h; omega⟩
    (by
      rintro i hi out ⟨hlo, hout⟩
      obtain ⟨j, h1, h2⟩ := hP i (by omega)
      rw [rd_eq_ok.mpr h1, ok_bind, rd_eq_ok.mpr h2, ok_bind, wr_lt (by omega)]
      refine ⟨_, rfl, by simpa using hlo, ?_⟩
      intro k hk hki
      rw [List.getElem?_set]
      by_cases e : i = k
      · subst e; rw [if_pos rfl, if_pos (by omega)]
      · rw [if_neg e]; exact hout k hk (by omega))
  rw [ho]
  congr 1
  apply List.ext_getElem?
  intro k
  by_cases hk : k < S.length
  · rw [hQ k hk (by omega), List.getElem?_eq_getElem hk]
  · rw [List.getElem?_eq_none (by omega), List.getElem?_eq_none (by omega)]

theorem sortClique_sort (vars : List Nat) (h : vars.Nodup) : sortClique vars = ok (vars.toFinset.sort (· ≤ ·)) := by
  obtain ⟨S, hS⟩ := exists_sortedOf vars h
  rw [sortClique_eq vars S hS, sortedOf_unique hS]

end Nip
