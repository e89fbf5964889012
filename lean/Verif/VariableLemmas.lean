import Verif.Variable
import Mathlib.Data.List.Basic
import Mathlib.Data.List.Nodup
import Mathlib.Data.List.Perm.Subperm
import Mathlib.Data.List.Dedup
import Mathlib.Tactic.Common

/-! # Lemmas about arrays of variables -/

namespace Nip

open Res

theorem firstIdx_list {α : Type} (arr : List α) (p : α → Bool) (n i : Nat) (h : i + n ≤ arr.length) :
    firstIdx (fun j => do
      let y ← rd arr j
      ok (p y)) i n = ok ((((arr.drop i).take n).findIdx? p).map (· + i)) := by
  induction n generalizing i with
  | zero => simp [firstIdx]
  | succ n ih =>
    have hi : i < arr.length := by omega
    unfold firstIdx
    rw [List.drop_eq_getElem_cons hi, List.take_succ_cons, List.findIdx?_cons, rd_lt hi, ih (i + 1) (by omega)]
    simp only [ok_bind]
    cases p arr[i] with
    | true => simp
    | false =>
      simp only [Bool.false_eq_true, if_false, Option.map_map]
      congr 2
      funext x
      simp only [Function.comp]; omega

theorem findVar_eq (x : Nat) (arr : List Nat) : findVar x arr arr.length = ok (arr.findIdx? (fun y => x == y)) := by
  unfold findVar
  rw [firstIdx_list arr (fun y => x == y) arr.length 0 (by omega)]
  simp

theorem findIdx_some_iff (x : Nat) (arr : List Nat) : (arr.findIdx? (fun y => x == y)).isSome = decide (x ∈ arr) := by
  rw [List.findIdx?_isSome]
  rw [Bool.eq_iff_iff]; simp

theorem countCommon_eq (a b : List Nat) : countCommon a b = ok (a.filter (· ∈ b)).length := by
  unfold countCommon
  obtain ⟨n, hn, hP⟩ := loop_inv (n := a.length) (f := fun i n => do
    let x ← rd a i
    let f ← findVar x b b.length
    ok (if f.isSome then n + 1 else n)) (s := 0) (fun i n => n = ((a.take i).filter (· ∈ b)).length) (by simp)
    (by
      rintro i hi n rfl
      refine ⟨_, by rw [rd_lt hi, ok_bind, findVar_eq, ok_bind], ?_⟩
      rw [findIdx_some_iff, List.take_succ_eq_append_getElem hi, List.filter_append, List.length_append]
      by_cases hx : a[i] ∈ b <;> simp [hx])
  rw [hn, hP]; simp

theorem common_comm {a b : List Nat} (ha : a.Nodup) (hb : b.Nodup) :
    (a.filter (· ∈ b)).length = (b.filter (· ∈ a)).length := by
  apply List.Perm.length_eq
  rw [List.perm_ext_iff_of_nodup (ha.filter _) (hb.filter _)]
  intro x; simp [and_comm]

theorem variableUnion_eq (a b : List Nat) (ha : a.Nodup) (hb : b.Nodup) :
    variableUnion a b = ok ((a ++ b.filter (· ∉ a)).map some, (a ++ b.filter (· ∉ a)).length) := by
  unfold variableUnion
  split
  · rename_i h
    have h1 := List.length_eq_zero_iff.mp h.1
    have h2 := List.length_eq_zero_iff.mp h.2
    subst h1 h2; simp
  · have hcount : a.length + b.length - (a.filter (· ∈ b)).length = (a ++ b.filter (· ∉ a)).length := by
      rw [common_comm ha hb, List.length_append]
      have h1 := List.length_eq_length_filter_add (l := b) (fun x => decide (x ∈ a))
      have h2 : b.filter (fun x => decide (x ∉ a)) = b.filter (fun x => !decide (x ∈ a)) := by
        apply List.filter_congr; intro x _; simp
      rw [h2]
      omega
    rw [countCommon_eq, ok_bind]
    simp only [hcount]
    split
    · rename_i h
      have := List.length_eq_zero_iff.mp h
      rw [this]; rfl
    · set nc := (a ++ b.filter (· ∉ a)).length with hnc
      have hnc' : nc = a.length + (b.filter (· ∉ a)).length := by rw [hnc, List.length_append]
      obtain ⟨c1, hc1, hP1⟩ := loop_inv (n := a.length) (f := fun i (c : List (Option Nat)) => do
          let x ← rd a i
          wr c i (some x)) (s := List.replicate nc none)
        (fun i c => c = (a.take i).map some ++ List.replicate (nc - i) none) (by simp)
        (by
          rintro i hi c rfl
          refine ⟨_, by rw [rd_lt hi, ok_bind, wr_lt (by simp; omega)], ?_⟩
          have hr : List.replicate (nc - i) (none : Option Nat) = none :: List.replicate (nc - (i + 1)) none := by
            rw [← List.replicate_succ]; congr 1; omega
          rw [hr, List.set_append_right _ _ (by simp; omega)]
          have : i - (List.map some (List.take i a)).length = 0 := by simp; omega
          rw [this, List.set_cons_zero, List.take_succ_eq_append_getElem hi, List.map_append, List.append_assoc]
          rfl)
      rw [hc1, ok_bind]
      obtain ⟨⟨c2, k⟩, hc2, hP2⟩ := loop_inv (n := b.length) (f := fun i (st : List (Option Nat) × Nat) => do
          let x ← rd b i
          let f ← firstIdx (fun j => do
            let y ← rd st.1 j
            ok (y == some x)) 0 st.2
          if f.isSome then ok st
          else do
            let c ← wr st.1 st.2 (some x)
            ok (c, st.2 + 1)) (s := (c1, a.length))
        (fun i st => st.2 = (a ++ (b.take i).filter (· ∉ a)).length ∧
          st.1 = (a ++ (b.take i).filter (· ∉ a)).map some ++ List.replicate (nc - st.2) none)
        (by
          refine ⟨by simp, ?_⟩
          rw [hP1]; simp)
        (by
          rintro i hi ⟨c, k⟩ ⟨hk, hc⟩
          simp only at hk hc
          have hle : (a ++ (b.take i).filter (· ∉ a)).length ≤ nc := by
            rw [hnc']; simp only [List.length_append]
            have := ((List.take_sublist i b).filter (fun x => decide (x ∉ a))).length_le
            omega
          have hclen : c.length = nc := by
            rw [hc, List.length_append, List.length_map, List.length_replicate, ← hk]; omega
          have hklen : k ≤ c.length := by omega
          have hfi := firstIdx_list c (fun y => y == some b[i]) k 0 (by omega)
          have htake : (c.drop 0).take k = (a ++ (b.take i).filter (· ∉ a)).map some := by
            rw [hc, hk, List.drop_zero, List.take_left' (by simp)]
          have hbi : b[i] ∉ b.take i := by
            have := hb
            rw [← List.take_append_drop i b, List.drop_eq_getElem_cons hi] at this
            have := (List.nodup_append.mp this).2.2
            intro hm
            exact this _ hm _ (List.mem_cons_self) rfl
          rw [htake] at hfi
          simp only [rd_lt hi, ok_bind]
          rw [hfi, ok_bind]
          rw [List.take_succ_eq_append_getElem hi, List.filter_append]
          by_cases hx : b[i] ∈ a
          · have hsome : (((a ++ (b.take i).filter (· ∉ a)).map some).findIdx? (fun y => y == some b[i])).isSome := by
              rw [List.findIdx?_isSome]; simp [hx]
            obtain ⟨j, hj⟩ := Option.isSome_iff_exists.mp hsome
            rw [hj]
            refine ⟨(c, k), rfl, ?_, ?_⟩
            · simp [hk, hx]
            · simp only [hx, not_true_eq_false, decide_false, List.filter_cons, Bool.false_eq_true, if_false,
                List.filter_nil, List.append_nil]
              exact hc
          · have hnone : ((a ++ (b.take i).filter (· ∉ a)).map some).findIdx? (fun y => y == some b[i]) = none := by
              rw [List.findIdx?_eq_none_iff]
              intro y hy
              simp only [List.mem_map, List.mem_append, List.mem_filter] at hy
              obtain ⟨z, hz, rfl⟩ := hy
              have : z ≠ b[i] := by
                rintro rfl
                rcases hz with hz | hz
                · exact hx hz
                · exact hbi hz.1
              simpa using this
            have hlt : k < nc := by
              rw [hk, hnc']; simp only [List.length_append]
              have h1 : (b.take (i + 1)).filter (· ∉ a) = (b.take i).filter (· ∉ a) ++ [b[i]] := by
                rw [List.take_succ_eq_append_getElem hi, List.filter_append]; simp [hx]
              have h2 := ((List.take_sublist (i + 1) b).filter (fun x => decide (x ∉ a))).length_le
              rw [h1] at h2
              simp at h2 ⊢; omega
            rw [hnone]
            refine ⟨_, by
              simp only [Option.map_none, Option.isSome_none, Bool.false_eq_true, if_false]
              rw [wr_lt (by omega), ok_bind], ?_, ?_⟩
            · simp only [hk]; simp [hx]; omega
            · have hr : List.replicate (nc - k) (none : Option Nat) = none :: List.replicate (nc - (k + 1)) none := by
                rw [← List.replicate_succ]; congr 1; omega
              rw [hc, hr, List.set_append_right _ _ (by simp [hk])]
              have : k - (List.map some (a ++ List.filter (fun x => decide (x ∉ a)) (List.take i b))).length = 0 := by
                simp [hk]
              rw [this, List.set_cons_zero]
              simp [hx])
      rw [hc2, ok_bind]
      simp only [List.take_length] at hP2
      rw [hP2.2, hP2.1, ← hnc]
      simp

theorem variableIsect_eq (a b : List Nat) :
    variableIsect a b = ok ((a.filter (· ∈ b)).map some, (a.filter (· ∈ b)).length) := by
  unfold variableIsect
  split
  · rename_i h
    have : a.filter (· ∈ b) = [] := by
      rcases h with h | h
      · rw [List.length_eq_zero_iff.mp h]; rfl
      · rw [List.length_eq_zero_iff.mp h]; simp
    rw [this]; rfl
  · rw [countCommon_eq, ok_bind]
    simp only
    split
    · rename_i h
      rw [List.length_eq_zero_iff.mp h]; rfl
    · set nc := (a.filter (· ∈ b)).length with hnc
      obtain ⟨⟨c2, k⟩, hc2, hP2⟩ := loop_inv (n := a.length) (f := fun i (st : List (Option Nat) × Nat) => do
          let x ← rd a i
          let f ← findVar x b b.length
          if f.isSome then do
            let c ← wr st.1 st.2 (some x)
            ok (c, st.2 + 1)
          else ok st) (s := (List.replicate nc none, 0))
        (fun i st => st.2 = ((a.take i).filter (· ∈ b)).length ∧
          st.1 = ((a.take i).filter (· ∈ b)).map some ++ List.replicate (nc - st.2) none)
        (by simp)
        (by
          rintro i hi ⟨c, k⟩ ⟨hk, hc⟩
          simp only at hk hc
          simp only [rd_lt hi, ok_bind, findVar_eq]
          rw [List.take_succ_eq_append_getElem hi, List.filter_append]
          by_cases hx : a[i] ∈ b
          · have hsome := findIdx_some_iff a[i] b
            simp only [hx, decide_true] at hsome
            obtain ⟨j, hj⟩ := Option.isSome_iff_exists.mp hsome
            have hlt : k < nc := by
              have h1 : (a.take (i + 1)).filter (· ∈ b) = (a.take i).filter (· ∈ b) ++ [a[i]] := by
                rw [List.take_succ_eq_append_getElem hi, List.filter_append]; simp [hx]
              have h2 := ((List.take_sublist (i + 1) a).filter (fun x => decide (x ∈ b))).length_le
              rw [h1] at h2
              simp at h2; omega
            rw [hj]
            refine ⟨_, by
              simp only [Option.isSome_some, if_true]
              rw [wr_lt (by rw [hc, List.length_append, List.length_map, List.length_replicate, ← hk]; omega), ok_bind], ?_, ?_⟩
            · simp only [hk]; simp [hx]
            · have hr : List.replicate (nc - k) (none : Option Nat) = none :: List.replicate (nc - (k + 1)) none := by
                rw [← List.replicate_succ]; congr 1; omega
              rw [hc, hr, List.set_append_right _ _ (by simp [hk])]
              have : k - (List.map some (List.filter (fun x => decide (x ∈ b)) (List.take i a))).length = 0 := by
                simp [hk]
              rw [this, List.set_cons_zero]
              simp [hx]
          · have hnone := findIdx_some_iff a[i] b
            simp only [hx, decide_false, Option.isSome_eq_false_iff, Option.isNone_iff_eq_none] at hnone
            rw [hnone]
            refine ⟨(c, k), rfl, ?_, ?_⟩
            · simp [hk, hx]
            · simp only [hx, decide_false, List.filter_cons, Bool.false_eq_true, if_false,
                List.filter_nil, List.append_nil]
              exact hc)
      rw [hc2, ok_bind]
      simp only [List.take_length] at hP2
      rw [hP2.2, hP2.1, ← hnc]
      simp

/-- `nip_mapper` on variables all present. -/
theorem mapper_eq (set subset : List Nat) (hsub : subset ⊆ set) (hne : subset ≠ [])
    (hlen : subset.length ≤ set.length) :
    ∃ m, mapper set subset = ok (0, some m) ∧ m = subset.map (fun x => set.findIdx (fun y => x == y)) := by
  unfold mapper
  rw [if_neg (by have := List.length_pos_iff.mpr hne; omega), if_neg (by omega)]
  obtain ⟨m, hm, hP⟩ := loop_inv (n := subset.length) (f := mapperStep set subset) (s := List.replicate subset.length 0)
    (fun i m => m = (subset.take i).map (fun x => set.findIdx (fun y => x == y)) ++ List.replicate (subset.length - i) 0)
    (by simp)
    (by
      rintro i hi m rfl
      have hx : subset[i] ∈ set := hsub (List.getElem_mem hi)
      have hf : set.findIdx? (fun y => subset[i] == y) = some (set.findIdx (fun y => subset[i] == y)) := by
        rw [List.findIdx?_eq_some_iff_findIdx_eq]
        exact ⟨List.findIdx_lt_length_of_exists ⟨_, hx, by simp⟩, rfl⟩
      refine ⟨_, by
        unfold mapperStep
        simp only [rd_lt hi, ok_bind, findVar_eq, hf]; rw [wr_lt (by simp; omega)], ?_⟩
      have hr : List.replicate (subset.length - i) 0 = 0 :: List.replicate (subset.length - (i + 1)) 0 := by
        rw [← List.replicate_succ]; congr 1; omega
      rw [hr, List.set_append_right _ _ (by simp; omega)]
      have : i - (List.map (fun x => set.findIdx (fun y => x == y)) (List.take i subset)).length = 0 := by simp; omega
      rw [this, List.set_cons_zero, List.take_succ_eq_append_getElem hi, List.map_append, List.append_assoc]
      rfl)
  exact ⟨m, by rw [hm, ok_bind], by rw [hP]; simp⟩

/-! ## The sorting routine -/

/-- the body of the inner loop of `nip_sort_variables` -/
abbrev sortInner (i : Nat) (j' : Nat) (s : List Nat) : Res (List Nat) := do
  let j := j' + 1
  let x ← rd s j
  let y ← rd s i
  if x < y then do
    let s ← wr s j y
    wr s i x
  else ok s

theorem swap_perm' {a : List Nat} {i m : Nat} (hi : i < a.length) (hm : m < a.length) (hne : m ≠ i) :
    ((a.set m a[i]).set i a[m]).Perm a := by
  rw [List.perm_iff_count]
  intro x
  rw [List.count_set (by simpa using hi), List.count_set hm, List.getElem_set, if_neg hne]
  have h1 : a[i] = x → 0 < List.count x a := fun e => List.count_pos_iff.mpr (e ▸ List.getElem_mem hi)
  have h2 : a[m] = x → 0 < List.count x a := fun e => List.count_pos_iff.mpr (e ▸ List.getElem_mem hm)
  simp only [beq_iff_eq]
  split <;> split <;> rename_i e1 e2 <;> simp_all

/-- one round leaves a permutation whose `i`-th element is not larger than any of those at `1 … n-1` -/
theorem sortRound (i : Nat) (s : List Nat) (hi : i < s.length) :
    ∃ s', loop (s.length - 1) (sortInner i) s = ok s' ∧ s'.Perm s ∧
      ∀ k (hk : k < s'.length) (hi' : i < s'.length), 1 ≤ k → s'[i] ≤ s'[k] := by
  obtain ⟨s', hs', hperm, hle⟩ := loop_inv (n := s.length - 1) (f := sortInner i) (s := s)
    (fun (j : Nat) (s' : List Nat) => s'.Perm s ∧
      ∀ (k : Nat) (hk : k < s'.length) (hi' : i < s'.length), 1 ≤ k → k ≤ j → s'[i] ≤ s'[k])
    ⟨List.Perm.refl _, fun k _ _ h1 h2 => by omega⟩
    (by
      rintro j hj s1 ⟨hp, hle⟩
      have hl := hp.length_eq
      have hi1 : i < s1.length := by omega
      have hj1 : j + 1 < s1.length := by omega
      unfold sortInner
      simp only [rd_lt hi1, rd_lt hj1, ok_bind]
      by_cases hlt : s1[j + 1] < s1[i]
      · rw [if_pos hlt, wr_lt hj1, ok_bind, wr_lt (by simpa using hi1)]
        have hne : j + 1 ≠ i := by rintro rfl; exact Nat.lt_irrefl _ hlt
        refine ⟨_, rfl, (swap_perm' hi1 hj1 hne).trans hp, ?_⟩
        intro k hk hi' h1 h2
        simp only [List.length_set] at hk hi'
        rw [List.getElem_set_self, List.getElem_set]
        split
        · exact Nat.le_refl _
        · rw [List.getElem_set]
          split
          · omega
          · have := hle k hk hi1 h1 (by omega)
            omega
      · rw [if_neg hlt]
        refine ⟨s1, rfl, hp, ?_⟩
        intro k hk hi' h1 h2
        by_cases hkj : k = j + 1
        · subst hkj; omega
        · exact hle k hk hi' h1 (by omega))
  refine ⟨s', hs', hperm, fun k hk hi' h1 => hle k hk hi' h1 ?_⟩
  have := hperm.length_eq
  omega

theorem sort_perm (n : Nat) (s : List Nat) (hn : n ≤ s.length) :
    ∃ s', loop n (fun i t => loop (s.length - 1) (sortInner i) t) s = ok s' ∧ s'.Perm s := by
  obtain ⟨s', h, hp⟩ := loop_inv (n := n) (f := fun i t => loop (s.length - 1) (sortInner i) t) (s := s)
    (fun _ t => t.Perm s) (List.Perm.refl _)
    (by
      intro i hi t ht
      have hl := ht.length_eq
      obtain ⟨t', h1, h2, _⟩ := sortRound i t (by omega)
      rw [hl] at h1
      exact ⟨t', h1, h2.trans ht⟩)
  exact ⟨s', h, hp⟩

theorem sortVariables_eq (s : List Nat) (hn : 1 ≤ s.length) :
    sortVariables s = (loop (s.length - 1) (fun i t => loop (s.length - 1) (sortInner i) t) s).bind (fun s => ok (some s)) := by
  unfold sortVariables
  rw [if_neg (by omega)]
  rfl

end Nip
