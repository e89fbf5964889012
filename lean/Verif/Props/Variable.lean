import Verif.VariableLemmas
import Mathlib.Data.Rat.Defs

/-!
# Properties C16–C19: variables and arrays of variables
-/

namespace Nip.Props

open Res

/-! ## C16 -/

/-- Create variables with the given cardinalities, one after the other. -/
def createAll (K : Type) [One K] : (nextId : Nat) → List Nat → List (Var K)
  | _, [] => []
  | nextId, card :: cards =>
    let r := Var.new (K := K) nextId card
    r.2 :: createAll K r.1 cards

theorem createAll_length (K : Type) [One K] (n : Nat) (cards : List Nat) : (createAll K n cards).length = cards.length := by
  induction cards generalizing n with
  | nil => rfl
  | cons c cs ih => simp [createAll, ih]

theorem createAll_getElem (K : Type) [One K] (n : Nat) (cards : List Nat) (i : Nat) (h : i < (createAll K n cards).length) :
    (createAll K n cards)[i] = ⟨n + i, cards[i]'(by rwa [createAll_length] at h),
      List.replicate (cards[i]'(by rwa [createAll_length] at h)) 1, false⟩ := by
  induction cards generalizing n i with
  | nil => simp [createAll] at h
  | cons c cs ih =>
    cases i with
    | zero => simp [createAll, Var.new]
    | succ i =>
      simp only [createAll, Var.new, List.getElem_cons_succ]
      rw [ih]
      simp; omega

/-- **C16**: in any sequence of creations (starting as the program does), identities increase strictly, no two variables compare
equal, every variable has the requested cardinality, one likelihood per state, all one, and no prior entered. -/
theorem C16_identities {K : Type} [One K] (cards : List Nat) :
    (createAll K varMinId cards).length = cards.length ∧
    (∀ (i j : Nat) (u v : Var K), (createAll K varMinId cards)[i]? = some u → (createAll K varMinId cards)[j]? = some v → i < j →
      u.id < v.id ∧ Var.equal u v = false ∧ Var.equal v u = false) ∧
    (∀ (i : Nat) (u : Var K), (createAll K varMinId cards)[i]? = some u →
      Var.equal u u = true ∧ varMinId ≤ u.id ∧ cards[i]? = some u.card ∧ u.likelihood.length = u.card ∧ (∀ x ∈ u.likelihood, x = 1) ∧
        u.priorEntered = false) := by
  refine ⟨createAll_length _ _ _, ?_, ?_⟩
  · intro i j u v hu hv hij
    obtain ⟨hi, rfl⟩ := List.getElem?_eq_some_iff.mp hu
    obtain ⟨hj, rfl⟩ := List.getElem?_eq_some_iff.mp hv
    rw [createAll_getElem, createAll_getElem]
    simp [Var.equal]; omega
  · intro i u hu
    obtain ⟨hi, rfl⟩ := List.getElem?_eq_some_iff.mp hu
    have hi' : i < cards.length := by rwa [createAll_length] at hi
    rw [createAll_getElem]
    refine ⟨by simp [Var.equal], by simp, by simp [hi'], by simp, ?_, rfl⟩
    intro x hx; exact (List.mem_replicate.mp hx).2

example : (createAll ℚ varMinId [2, 3, 2]).map (fun v => (v.id, v.likelihood)) = [(1, [1, 1]), (2, [1, 1, 1]), (3, [1, 1])] := by
  decide

/-- **C16** (forgetting evidence): whatever the current evidence, resetting it makes every likelihood one, and nothing else changes. -/
theorem C16_reset {K : Type} [One K] (v : Var K) (h : v.likelihood.length = v.card) :
    v.resetLikelihood = ok { v with likelihood := List.replicate v.card 1 } := by
  unfold Var.resetLikelihood
  obtain ⟨l, hl, hP⟩ := loop_inv (n := v.card) (f := fun i l => wr l i (1 : K)) (s := v.likelihood)
    (fun i l => l = List.replicate i 1 ++ v.likelihood.drop i) (by simp)
    (by
      rintro i hi l rfl
      refine ⟨_, wr_lt (by simp; omega), ?_⟩
      rw [List.drop_eq_getElem_cons (by omega), List.set_append_right _ _ (by simp), List.length_replicate,
        Nat.sub_self, List.set_cons_zero, List.replicate_succ', List.append_assoc]
      rfl)
  rw [hl, ok_bind, hP, List.drop_eq_nil_of_le (by omega)]
  simp

/-- **C16** (recording evidence): new evidence replaces the old completely. -/
theorem C16_update {K : Type} (v : Var K) (e : List K) (h : v.likelihood.length = v.card) (he : e.length = v.card) :
    v.updateLikelihood e = ok { v with likelihood := e } := by
  unfold Var.updateLikelihood
  obtain ⟨l, hl, hP⟩ := loop_inv (n := v.card) (f := fun i l => do
      let x ← rd e i
      wr l i x) (s := v.likelihood)
    (fun i l => l = e.take i ++ v.likelihood.drop i) (by simp)
    (by
      rintro i hi l rfl
      refine ⟨_, by rw [rd_lt (by omega), ok_bind, wr_lt (by simp; omega)], ?_⟩
      rw [List.drop_eq_getElem_cons (by omega), List.set_append_right _ _ (by simp; omega),
        List.take_succ_eq_append_getElem (by omega)]
      have : i - (List.take i e).length = 0 := by simp; omega
      rw [this, List.set_cons_zero, List.append_assoc]; rfl)
  rw [hl, ok_bind, hP, List.drop_eq_nil_of_le (by omega), List.append_nil, List.take_of_length_le (by omega)]

example : (⟨3, 2, [0, 1/3], false⟩ : Var ℚ).likelihood.length = 2 := rfl

/-! ## C17 -/

/-- **C17** (union): for arrays without repetitions the union array is completely filled, has the reported size, starts with the
first array, continues with the new ones in the order of the second, and contains exactly the variables in either, once each. -/
theorem C17_union (a b : List Nat) (ha : a.Nodup) (hb : b.Nodup) :
    ∃ c : List Nat, variableUnion a b = ok (c.map some, c.length) ∧ c.Nodup ∧ (∀ x, x ∈ c ↔ x ∈ a ∨ x ∈ b) ∧
      c.take a.length = a ∧ (c.drop a.length).Sublist b := by
  refine ⟨_, variableUnion_eq a b ha hb, ?_, ?_, by simp, by simp⟩
  · rw [List.nodup_append]
    refine ⟨ha, hb.filter _, ?_⟩
    rintro x hx y hy rfl
    simp at hy; exact hy.2 hx
  · intro x; simp only [List.mem_append, List.mem_filter, decide_eq_true_eq]
    by_cases h : x ∈ a <;> simp [h]

/-- **C17** (intersection): exactly the variables in both, in the order of the first array, completely filled and with the right
size reported. -/
theorem C17_isect (a b : List Nat) (ha : a.Nodup) :
    ∃ c : List Nat, variableIsect a b = ok (c.map some, c.length) ∧ c.Nodup ∧ (∀ x, x ∈ c ↔ x ∈ a ∧ x ∈ b) ∧ c.Sublist a := by
  exact ⟨_, variableIsect_eq a b, ha.filter _, by simp, List.filter_sublist⟩

example : ([4, 7, 1] : List Nat).Nodup ∧ ([7, 2, 4, 9] : List Nat).Nodup ∧
    variableUnion [4, 7, 1] [7, 2, 4, 9] = ok ([some 4, some 7, some 1, some 2, some 9], 5) ∧
    variableIsect [4, 7, 1] [7, 2, 4, 9] = ok ([some 4, some 7], 2) := by decide

/-! ## C18 -/

/-- **C18**: for distinct variables, all present in the set, the mapping has one entry per variable of the subset, and the entry is
the (only) position of the variable in the set. -/
theorem C18_mapper (set subset : List Nat) (hset : set.Nodup) (hsub : subset.Nodup) (h : ∀ x ∈ subset, x ∈ set)
    (hne : subset ≠ []) :
    ∃ m, mapper set subset = ok (0, some m) ∧ m.length = subset.length ∧
      (∀ i j : Nat, m[i]? = some j → set[j]? = subset[i]? ∧ j < set.length ∧ ∀ k, set[k]? = subset[i]? → k = j) ∧
      m.map (fun j => set[j]?) = subset.map some := by
  have hlen : subset.length ≤ set.length := (List.subperm_of_subset hsub h).length_le
  obtain ⟨m, hm, rfl⟩ := mapper_eq set subset h hne hlen
  have hfind : ∀ x ∈ subset, set[set.findIdx (fun y => x == y)]? = some x := by
    intro x hx
    have hlt : set.findIdx (fun y => x == y) < set.length := List.findIdx_lt_length_of_exists ⟨x, h x hx, by simp⟩
    have := List.findIdx_getElem (w := hlt)
    simp only [beq_iff_eq] at this
    rw [List.getElem?_eq_getElem hlt, ← this]
  refine ⟨_, hm, by simp, ?_, ?_⟩
  · intro i j hij
    rw [List.getElem?_map, Option.map_eq_some_iff] at hij
    obtain ⟨x, hx, rfl⟩ := hij
    have hxs : x ∈ subset := List.mem_of_getElem? hx
    have hx2 := hfind x hxs
    refine ⟨hx2.trans hx.symm, (List.getElem?_eq_some_iff.mp hx2).1, ?_⟩
    intro k hk
    rw [hx, ← hx2] at hk
    have hklt : k < set.length := (List.getElem?_eq_some_iff.mp (hk.trans hx2)).1
    exact (List.getElem?_inj hklt hset).mp hk
  · rw [List.map_map]
    apply List.map_congr_left
    intro x hx
    exact hfind x hx

/-- **C18** (refusal): a subset larger than the set is refused with an error. -/
theorem C18_refused (set subset : List Nat) (h : set.length < subset.length) : mapper set subset = ok (EINVAL, none) := by
  unfold mapper
  rw [if_neg (by omega), if_pos (by omega)]

example : mapper [5, 2, 8, 3] [3, 5] = ok (0, some [3, 0]) := by decide

/-! ## C19 -/

/-- **C19** (all sizes): sorting never leaves the array and its result is a permutation of the array. -/
theorem C19_permutation (vars : List Nat) (h : vars ≠ []) : ∃ s, sortVariables vars = ok (some s) ∧ s.Perm vars := by
  have hl := List.length_pos_iff.mpr h
  obtain ⟨s, hs, hp⟩ := sort_perm (vars.length - 1) vars (by omega)
  exact ⟨s, by rw [sortVariables_eq _ hl, hs]; rfl, hp⟩

/-- **C19** is false of the code: *every* array of at least four different variables comes out of `nip_sort_variables` in an order
that is not increasing. -/
theorem C19_refuted (vars : List Nat) (hd : vars.Nodup) (h4 : 4 ≤ vars.length) :
    ∃ s, sortVariables vars = ok (some s) ∧ ¬ s.Pairwise (· ≤ ·) := by
  obtain ⟨s0, hs0, hp0⟩ := sort_perm (vars.length - 2) vars (by omega)
  have hl0 := hp0.length_eq
  obtain ⟨s, hs, hp, hle⟩ := sortRound (vars.length - 2) s0 (by omega)
  have hl := hp.length_eq
  refine ⟨s, ?_, ?_⟩
  · rw [sortVariables_eq _ (by omega)]
    have : vars.length - 1 = (vars.length - 2) + 1 := by omega
    rw [hl0] at hs
    have e : loop (vars.length - 1) (fun i t => loop (vars.length - 1) (sortInner i) t) vars = ok s := by
      conv_lhs => rw [this, loop_succ]
      rw [← this, hs0]
      exact hs
    rw [e]; rfl
  · intro hsorted
    have hnd : s.Nodup := (hp.trans hp0).nodup_iff.mpr hd
    have h1 : 1 < s.length := by omega
    have h2 : vars.length - 2 < s.length := by omega
    have hA := hle 1 h1 h2 (by omega)
    have hB := List.pairwise_iff_getElem.mp hsorted 1 (vars.length - 2) h1 h2 (by omega)
    have := (List.Nodup.getElem_inj_iff hnd).mp (Nat.le_antisymm hA hB)
    omega

/-- a concrete witness -/
example : sortVariables [1, 2, 3, 4] = ok (some [1, 3, 2, 4]) := by decide

/-- **C19**, what holds: arrays of up to three variables are sorted.  Missing: anything larger, which is false, see `C19_refuted`. -/
theorem C19_small_partial (vars : List Nat) (h : vars ≠ []) (h3 : vars.length ≤ 3) :
    ∃ s, sortVariables vars = ok (some s) ∧ s.Perm vars ∧ s.Pairwise (· ≤ ·) := by
  obtain ⟨s, hs, hp⟩ := C19_permutation vars h
  refine ⟨s, hs, hp, ?_⟩
  match vars, h, h3 with
  | [a], _, _ =>
    have : s = [a] := by
      have : sortVariables [a] = ok (some [a]) := rfl
      rw [this] at hs; cases hs; rfl
    subst this; simp
  | [a, b], _, _ =>
    by_cases hab : b < a
    · have : sortVariables [a, b] = ok (some [b, a]) := by
        simp [sortVariables, loop, rd, wr, hab]
      rw [this] at hs; cases hs
      simp; omega
    · have : sortVariables [a, b] = ok (some [a, b]) := by
        simp [sortVariables, loop, rd, wr, hab]
      rw [this] at hs; cases hs
      simp; omega
  | [a, b, c], _, _ =>
    obtain ⟨s1, hs1, hp1, hle1⟩ := sortRound 0 [a, b, c] (by simp)
    have hl1 := hp1.length_eq
    match s1, hl1 with
    | [x, y, z], _ =>
      have h01 : x ≤ y := hle1 1 (by simp) (by simp) (by omega)
      have h02 : x ≤ z := hle1 2 (by simp) (by simp) (by omega)
      by_cases hzy : z < y
      · have : sortVariables [a, b, c] = ok (some [x, z, y]) := by
          rw [sortVariables_eq _ (by simp)]
          have e : loop 2 (fun i t => loop 2 (sortInner i) t) [a, b, c]
            = ((loop 2 (sortInner 0) [a, b, c]).bind (loop 2 (sortInner 1))) := rfl
          change (loop 2 (fun i t => loop 2 (sortInner i) t) [a, b, c]).bind _ = _
          rw [e]
          change (((loop ([a,b,c].length - 1) (sortInner 0) [a, b, c]).bind (loop 2 (sortInner 1))).bind _) = _
          rw [hs1]
          simp [sortInner, loop, rd, wr, hzy]
        rw [this] at hs; cases hs
        simp; omega
      · have : sortVariables [a, b, c] = ok (some [x, y, z]) := by
          rw [sortVariables_eq _ (by simp)]
          have e : loop 2 (fun i t => loop 2 (sortInner i) t) [a, b, c]
            = ((loop 2 (sortInner 0) [a, b, c]).bind (loop 2 (sortInner 1))) := rfl
          change (loop 2 (fun i t => loop 2 (sortInner i) t) [a, b, c]).bind _ = _
          rw [e]
          change (((loop ([a,b,c].length - 1) (sortInner 0) [a, b, c]).bind (loop 2 (sortInner 1))).bind _) = _
          rw [hs1]
          simp [sortInner, loop, rd, wr, hzy]
        rw [this] at hs; cases hs
        simp; omega

example : ([9, 4, 6] : List Nat) ≠ [] ∧ sortVariables [9, 4, 6] = ok (some [4, 6, 9]) := by decide

end Nip.Props
