import Mathlib.Algebra.Order.Ring.Defs
import Mathlib.Algebra.Order.BigOperators.Group.List
import Mathlib.Data.List.GetD
import Mathlib.Data.List.TakeDrop
import Mathlib.Logic.Relation
import Mathlib.Algebra.Order.Field.Rat
import Verif.SamplingLemmas

/-!
# C48, C49: drawing a state at random, and the order of sampling
-/

namespace Nip.Props

open Nip Res

section lottery

variable {K : Type} [Field K] [LinearOrder K]

/-- A probability distribution over the states `0, 1, …`. -/
def Distribution (d : List K) : Prop := (∀ a ∈ d, 0 ≤ a) ∧ d.sum = 1

/-- The probability of the states `0, …, i`. -/
def cumulative (d : List K) (i : Nat) : K := (d.take (i + 1)).sum

omit [LinearOrder K] in
theorem cumulative_succ (d : List K) (i : Nat) (h : i + 1 < d.length) : cumulative d (i + 1) = cumulative d i + d.getD (i + 1) 0 := by
  unfold cumulative
  rw [List.take_add_one, List.sum_append, List.getElem?_eq_getElem h, List.getD_eq_getElem _ _ h]
  simp

theorem lotteryLoop_spec (d : List K) (r : K) (fuel i : Nat) (hf : d.length + 1 ≤ fuel + i) (hi : i ≤ d.length)
    (before : ∀ j, j < i → cumulative d j < r) :
    (∃ k : Nat, lotteryLoop d d.length r fuel i (d.take i).sum = ok ((k : Int), false) ∧ k < d.length ∧ r ≤ cumulative d k ∧
        ∀ j, j < k → cumulative d j < r) ∨
      (lotteryLoop d d.length r fuel i (d.take i).sum = ok ((d.length : Int) - 1, true) ∧ ∀ j, j < d.length → cumulative d j < r) := by
  induction fuel generalizing i with
  | zero => omega
  | succ fuel ih =>
    unfold lotteryLoop
    by_cases h : d.length ≤ i
    · rw [if_pos h]
      exact Or.inr ⟨rfl, fun j hj => before j (by omega)⟩
    · have hlt : i < d.length := by omega
      rw [if_neg h, rd_lt hlt]
      simp only [ok_bind]
      have e : (d.take i).sum + d[i] = (d.take (i + 1)).sum := by
        rw [List.take_add_one, List.sum_append, List.getElem?_eq_getElem hlt]; simp
      rw [e]
      by_cases hr : (d.take (i + 1)).sum < r
      · rw [if_pos hr]
        refine ih (i + 1) (by omega) (by omega) (fun j hj => ?_)
        rcases Nat.lt_or_ge j i with hji | hji
        · exact before j hji
        · have : j = i := by omega
          subst this; exact hr
      · rw [if_neg hr]
        exact Or.inl ⟨i, rfl, hlt, not_lt.mp hr, before⟩

/-- The state drawn is the first one whose cumulative probability reaches the random number; it is a valid state, and no error is
reported. -/
theorem C48_first_state (d : List K) (hd : Distribution d) (r : K) (hr : r ≤ 1) :
    ∃ k : Nat, lottery d d.length r = ok ((k : Int), false) ∧ k < d.length ∧ r ≤ cumulative d k ∧ ∀ j, j < k → cumulative d j < r := by
  have h := lotteryLoop_spec d r (d.length + 1) 0 (by omega) (by omega) (fun j hj => by omega)
  simp only [List.take_zero, List.sum_nil] at h
  rcases h with h | ⟨_, h2⟩
  · exact h
  · exfalso
    have hne : d ≠ [] := by
      rintro rfl
      exact zero_ne_one (α := K) hd.2
    have hpos := List.length_pos_iff.mpr hne
    have := h2 (d.length - 1) (by omega)
    unfold cumulative at this
    rw [Nat.sub_add_cancel hpos, List.take_length, hd.2] at this
    exact absurd hr (not_le.mpr this)

/-- For any numbers at all (rounding may make them sum to less than one) a valid state is drawn, and an error is reported exactly if the
random number is not reached. -/
theorem C48_always_valid (d : List K) (hd : d ≠ []) (r : K) :
    ∃ (k : Nat) (b : Bool), lottery d d.length r = ok ((k : Int), b) ∧ k < d.length ∧ (b = true ↔ ∀ j, j < d.length → cumulative d j < r) := by
  have hpos := List.length_pos_iff.mpr hd
  have h := lotteryLoop_spec d r (d.length + 1) 0 (by omega) (by omega) (fun j hj => by omega)
  simp only [List.take_zero, List.sum_nil] at h
  rcases h with ⟨k, h1, h2, h3, _⟩ | ⟨h1, h2⟩
  · exact ⟨k, false, h1, h2, by
      constructor
      · intro h; cases h
      · intro h; exact absurd h3 (not_le.mpr (h k h2))⟩
  · refine ⟨d.length - 1, true, ?_, by omega, by simpa using h2⟩
    unfold lottery
    rw [h1]
    congr 2
    omega

/-- A state of probability zero is not drawn if the random number is positive.  What is missing from C48: the random number `0`, which `rand`
may well give (`C48_refuted`). -/
theorem C48_possible_state_partial [IsStrictOrderedRing K] (d : List K) (hd : Distribution d) (r : K) (h0 : 0 < r) (hr : r ≤ 1) :
    ∃ k : Nat, lottery d d.length r = ok ((k : Int), false) ∧ 0 < d.getD k 0 := by
  obtain ⟨k, h1, h2, h3, h4⟩ := C48_first_state d hd r hr
  refine ⟨k, h1, ?_⟩
  cases k with
  | zero =>
    have : cumulative d 0 = d.getD 0 0 := by
      unfold cumulative
      rw [List.take_add_one, List.getElem?_eq_getElem h2, List.getD_eq_getElem _ _ h2]; simp
    rw [this] at h3
    exact lt_of_lt_of_le h0 h3
  | succ k =>
    have h5 := h4 k (by omega)
    rw [cumulative_succ d k h2] at h3
    by_contra hneg
    have := not_lt.mp hneg
    exact absurd (le_trans h3 (add_le_of_nonpos_right this)) (not_le.mpr h5)

/-- With the random number `0` the first state is drawn even if its probability is zero. -/
theorem C48_refuted : ∃ d : List ℚ, Distribution d ∧ lottery d d.length 0 = ok (0, false) ∧ d.getD 0 0 = 0 :=
  ⟨[0, 1], ⟨by decide +kernel, by decide +kernel⟩, by decide +kernel, rfl⟩

/-- Each state owns an interval of random numbers. -/
example : Distribution ([1 / 2, 0, 1 / 2] : List ℚ) ∧ lottery ([1 / 2, 0, 1 / 2] : List ℚ) 3 (1 / 2) = ok (0, false) ∧
    lottery ([1 / 2, 0, 1 / 2] : List ℚ) 3 (3 / 5) = ok (2, false) ∧ lottery ([1 / 2, 0, 1 / 2] : List ℚ) 3 1 = ok (2, false) :=
  ⟨⟨by decide +kernel, by decide +kernel⟩, by decide +kernel, by decide +kernel, by decide +kernel⟩

end lottery

/-- The variables `varList` with their parents form a network: distinct variables, parents among them. -/
def Network (parents : Nat → List Nat) (varList : List Nat) : Prop :=
  varList.Nodup ∧ ∀ v ∈ varList, ∀ p ∈ parents v, p ∈ varList

/-- No variable can be reached from itself by following the links from parents to children. -/
def Acyclic (parents : Nat → List Nat) (varList : List Nat) : Prop :=
  ∀ v, ¬ Relation.TransGen (fun p c => c ∈ varList ∧ p ∈ parents c) v v

/-- An order listing each variable exactly once, every parent before its children. -/
def TopologicalOrder (parents : Nat → List Nat) (varList order : List Nat) : Prop :=
  order.Perm varList ∧ ∀ a v b, order = a ++ v :: b → ∀ p ∈ parents v, p ∈ a

theorem stOf_vars_full {varList l : List Nat} {mark : Nat → Bool} (h : l.length = varList.length) :
    (Order.stOf varList mark l).vars = l := by
  simp [Order.stOf, h]

theorem good_full {parents : Nat → List Nat} {varList l : List Nat} (hg : Order.Good parents varList l)
    (h : l.length = varList.length) : TopologicalOrder parents varList l :=
  ⟨(hg.nodup.subperm hg.sub).perm_of_length_le (by omega), hg.earlier⟩

/-- For every acyclic network, in whatever order its variables were declared and whatever marks earlier operations have left, the
loops end (after at most as many passes as there are variables) and the order is topological. -/
theorem C49_order (parents : Nat → List Nat) (varList : List Nat) (mark : Nat → Bool) (hn : Network parents varList)
    (ha : Acyclic parents varList) (fuel : Nat) (hf : varList.length + 1 ≤ fuel) :
    ∃ order, samplingOrder parents varList mark fuel = ok order ∧ TopologicalOrder parents varList order := by
  rw [Order.samplingOrder_eq]
  obtain ⟨l, h1, hg⟩ := Order.independent_spec (parents := parents) (mark := mark) hn.1
  obtain ⟨l', h2, hg', hlen⟩ := Order.passes_spec (mark := mark) hn.2 hn.1 ha fuel hg (by omega)
  rw [h1]
  simp only [ok_bind']
  rw [h2]
  simp only [ok_bind', stOf_vars_full hlen]
  exact ⟨l', rfl, good_full hg' hlen⟩

theorem order_acyclic {parents : Nat → List Nat} {varList order : List Nat} (h : TopologicalOrder parents varList order)
    (hn : varList.Nodup) : Acyclic parents varList := by
  have step : ∀ p c, c ∈ varList ∧ p ∈ parents c → order.idxOf p < order.idxOf c := by
    rintro p c ⟨hc, hp⟩
    obtain ⟨a, b, hab⟩ := List.append_of_mem (h.1.mem_iff.mpr hc)
    have hpa := h.2 a c b hab p hp
    have hnd : order.Nodup := h.1.nodup_iff.mpr hn
    have hca : c ∉ a := by
      rw [hab, List.nodup_append] at hnd
      intro hca
      exact hnd.2.2 c hca c (by simp) rfl
    have e1 : order.idxOf p < a.length := by
      rw [hab, List.idxOf_append_of_mem hpa]
      exact List.idxOf_lt_length_iff.mpr hpa
    have e2 : order.idxOf c = a.length := by
      rw [hab, List.idxOf_append_of_notMem hca, List.idxOf_cons_self]; rfl
    omega
  intro v hv
  have : ∀ a b, Relation.TransGen (fun p c => c ∈ varList ∧ p ∈ parents c) a b → order.idxOf a < order.idxOf b := by
    intro a b hab
    induction hab with
    | single h1 => exact step _ _ h1
    | tail _ h1 ih => exact lt_trans ih (step _ _ h1)
  exact lt_irrefl _ (this v v hv)

/-- The loop ends for acyclic networks only: with a directed cycle it goes on for ever. -/
theorem C49_cycle (parents : Nat → List Nat) (varList : List Nat) (mark : Nat → Bool) (hn : Network parents varList)
    (ha : ¬ Acyclic parents varList) (fuel : Nat) : samplingOrder parents varList mark fuel = ub := by
  rw [Order.samplingOrder_eq]
  obtain ⟨l, h1, hg⟩ := Order.independent_spec (parents := parents) (mark := mark) hn.1
  rw [h1]
  simp only [ok_bind']
  cases h : (Order.stOf varList mark l).passes parents varList fuel with
  | ub => rfl
  | ok st =>
    obtain ⟨l', _, hg', hlen⟩ := Order.passes_end hn.2 fuel hg st h
    exact absurd (order_acyclic (good_full hg' hlen) hn.1) ha

/-- A network of four variables declared in an unhelpful order: `3` has parents `1` and `4`, `1` has parent `4`, `2` has parent `3`. -/
def demoParents : Nat → List Nat
  | 3 => [1, 4]
  | 1 => [4]
  | 2 => [3]
  | _ => []

example : samplingOrder demoParents [2, 3, 1, 4] (fun _ => true) 5 = ok [4, 1, 3, 2] := by decide

example : Network demoParents [2, 3, 1, 4] ∧ Acyclic demoParents [2, 3, 1, 4] := by
  refine ⟨⟨by decide, by decide⟩, ?_⟩
  refine order_acyclic (order := [4, 1, 3, 2]) ⟨by decide, ?_⟩ (by decide)
  intro a v b hab
  match a with
  | [] => simp at hab; obtain ⟨rfl, _⟩ := hab; simp [demoParents]
  | [_] => simp at hab; obtain ⟨rfl, rfl, _⟩ := hab; simp [demoParents]
  | [_, _] => simp at hab; obtain ⟨rfl, rfl, rfl, _⟩ := hab; simp [demoParents]
  | [_, _, _] => simp at hab; obtain ⟨rfl, rfl, rfl, rfl, _⟩ := hab; simp [demoParents]
  | _ :: _ :: _ :: _ :: a => simp at hab

/-- Two variables that are each other's parents. -/
example : ¬ Acyclic (fun v => if v = 1 then [2] else [1]) [1, 2] := by
  intro h
  exact h 1 (Relation.TransGen.tail (Relation.TransGen.single (b := 2) ⟨by decide, by decide⟩) ⟨by decide, by decide⟩)

end Nip.Props
