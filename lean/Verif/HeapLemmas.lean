import Verif.Heap
import Mathlib.Data.List.Perm.Basic
import Mathlib.Data.List.GetD
import Mathlib.Order.Basic
import Mathlib.Tactic.Common

/-! # Lemmas about the heap -/

namespace Nip.Heap

open Res

variable {α : Type}

/-- cost order of items -/
def le (a b : HeapItem α) : Prop := a.primary < b.primary ∨ (a.primary = b.primary ∧ a.secondary ≤ b.secondary)

theorem le_refl (a : HeapItem α) : le a a := Or.inr ⟨rfl, Int.le_refl _⟩
theorem le_trans {a b c : HeapItem α} : le a b → le b c → le a c := by unfold le; omega
theorem le_total (a b : HeapItem α) : le a b ∨ le b a := by unfold le; omega
theorem lessThan_iff {a b : HeapItem α} : lessThan a b = true ↔ ¬ le b a := by
  unfold lessThan le; simp; omega
theorem lessThan_false {a b : HeapItem α} : lessThan a b = false ↔ le b a := by
  rw [← Bool.not_eq_true, lessThan_iff, not_not]

/-- heap order between `j` and its parent for every `j` whose parent is at least `k` and is not `ex` -/
def Ord (a : List (HeapItem α)) (k : Nat) (ex : Option Nat) : Prop :=
  ∀ j (hj : j < a.length), 1 ≤ j → k ≤ (j - 1) / 2 → some ((j - 1) / 2) ≠ ex →
    le (a[(j - 1) / 2]'(by omega)) a[j]

/-- children of `i` are not below the parent of `i` -/
def Grand (a : List (HeapItem α)) (k i : Nat) : Prop :=
  1 ≤ i → k ≤ (i - 1) / 2 → ∀ j (hj : j < a.length), 1 ≤ j → ∀ hp : (j - 1) / 2 = i,
    le (a[(i - 1) / 2]'(by omega)) a[j]

theorem minChild_spec (a : List (HeapItem α)) (i : Nat) (hi : i < a.length) :
    ∃ m, ∃ hm : m < a.length, minChild a i = ok m ∧
      ((m = i ∧ ∀ j (hj : j < a.length), 1 ≤ j → (j - 1) / 2 = i → le a[i] a[j]) ∨
       (m ≠ i ∧ 1 ≤ m ∧ (m - 1) / 2 = i ∧ ¬ le a[i] a[m] ∧
        ∀ j (hj : j < a.length), 1 ≤ j → (j - 1) / 2 = i → le a[m] a[j])) := by
  have child : ∀ j, 1 ≤ j → (j - 1) / 2 = i → j = 2 * i + 1 ∨ j = 2 * (i + 1) := by intros; omega
  unfold minChild
  by_cases hl : 2 * i + 1 < a.length
  · simp only [hl, if_true, rd_lt hl, rd_lt hi, ok_bind]
    by_cases hli : lessThan a[2 * i + 1] a[i] = true
    · simp only [hli, if_true]
      have hli' := lessThan_iff.mp hli
      by_cases hr : 2 * (i + 1) < a.length
      · simp only [hr, if_true, rd_lt hr, rd_lt hl, ok_bind]
        by_cases hrl : lessThan a[2 * (i + 1)] a[2 * i + 1] = true
        · have hrl' := lessThan_iff.mp hrl
          refine ⟨2 * (i + 1), hr, by simp [hrl], Or.inr ⟨by omega, by omega, by omega, ?_, ?_⟩⟩
          · intro h
            rcases le_total a[i] a[2 * i + 1] with h1 | h1
            · exact hli' h1
            · exact hrl' (le_trans h1 h)
          · intro j hj h1 h2
            rcases child j h1 h2 with rfl | rfl
            · rcases le_total a[2 * (i + 1)] a[2 * i + 1] with h3 | h3
              · exact h3
              · exact absurd h3 hrl'
            · exact le_refl _
        · simp only [Bool.not_eq_true] at hrl
          refine ⟨2 * i + 1, hl, by simp [hrl], Or.inr ⟨by omega, by omega, by omega, hli', ?_⟩⟩
          intro j hj h1 h2
          rcases child j h1 h2 with rfl | rfl
          · exact le_refl _
          · exact lessThan_false.mp hrl
      · refine ⟨2 * i + 1, hl, by simp [hr], Or.inr ⟨by omega, by omega, by omega, hli', ?_⟩⟩
        intro j hj h1 h2
        rcases child j h1 h2 with rfl | rfl
        · exact le_refl _
        · omega
    · simp only [Bool.not_eq_true] at hli
      have hli' := lessThan_false.mp hli
      simp only [hli, Bool.false_eq_true, if_false]
      by_cases hr : 2 * (i + 1) < a.length
      · simp only [hr, if_true, rd_lt hr, rd_lt hi, ok_bind]
        by_cases hri : lessThan a[2 * (i + 1)] a[i] = true
        · have hri' := lessThan_iff.mp hri
          refine ⟨2 * (i + 1), hr, by simp [hri], Or.inr ⟨by omega, by omega, by omega, hri', ?_⟩⟩
          intro j hj h1 h2
          rcases child j h1 h2 with rfl | rfl
          · rcases le_total a[2 * (i + 1)] a[i] with h3 | h3
            · exact le_trans h3 hli'
            · exact absurd h3 hri'
          · exact le_refl _
        · simp only [Bool.not_eq_true] at hri
          refine ⟨i, hi, by simp [hri], Or.inl ⟨rfl, ?_⟩⟩
          intro j hj h1 h2
          rcases child j h1 h2 with rfl | rfl
          · exact hli'
          · exact lessThan_false.mp hri
      · refine ⟨i, hi, by simp [hr], Or.inl ⟨rfl, ?_⟩⟩
        intro j hj h1 h2
        rcases child j h1 h2 with rfl | rfl
        · exact hli'
        · omega
  · have hr : ¬ 2 * (i + 1) < a.length := by omega
    refine ⟨i, hi, by simp [hl, hr], Or.inl ⟨rfl, ?_⟩⟩
    intro j hj h1 h2
    rcases child j h1 h2 with rfl | rfl <;> omega

/-- outside the array nothing is read -/
theorem minChild_out (a : List (HeapItem α)) (i : Nat) (hi : a.length ≤ i) : minChild a i = ok i := by
  unfold minChild
  have hl : ¬ 2 * i + 1 < a.length := by omega
  have hr : ¬ 2 * (i + 1) < a.length := by omega
  simp [hl, hr]

theorem swap_perm {a : List (HeapItem α)} {i m : Nat} (hi : i < a.length) (hm : m < a.length) (hne : m ≠ i) :
    ((a.set m a[i]).set i a[m]).Perm a := by
  classical
  rw [List.perm_iff_count]
  intro x
  rw [List.count_set (by simpa using hi), List.count_set hm, List.getElem_set]
  simp only [hne, if_false]
  have h1 : ∀ k (hk : k < a.length), a[k] = x → 0 < a.count x := fun k hk h =>
    List.count_pos_iff.mpr (h ▸ List.getElem_mem hk)
  by_cases e1 : a[m] = x <;> by_cases e2 : a[i] = x
  · have := h1 m hm e1; simp [e1, e2]; omega
  · have := h1 m hm e1; simp [e1, e2]; omega
  · have := h1 i hi e2; simp [e1, e2]
  · simp [e1, e2]

/-- sifting terminates, stays in bounds and permutes, whatever the contents -/
theorem siftDown_perm (fuel : Nat) (a : List (HeapItem α)) (i : Nat) (hf : a.length < fuel + i) (h0 : 0 < fuel) :
    ∃ b, siftDown fuel a i = ok b ∧ b.Perm a := by
  induction fuel generalizing a i with
  | zero => omega
  | succ fuel ih =>
    unfold siftDown
    by_cases hi : i < a.length
    · obtain ⟨m, hm, hrun, hcase⟩ := minChild_spec a i hi
      rw [hrun, ok_bind]
      rcases hcase with ⟨rfl, _⟩ | ⟨hne, h1, hpar, _, _⟩
      · exact ⟨a, by simp, List.Perm.refl _⟩
      · rw [if_pos hne, rd_lt hm, ok_bind, rd_lt hi, ok_bind, wr_lt hm, ok_bind,
          wr_lt (by simpa using hi), ok_bind]
        obtain ⟨b, hb, hperm⟩ := ih ((a.set m a[i]).set i a[m]) m (by simp; omega) (by omega)
        exact ⟨b, hb, hperm.trans (swap_perm hi hm hne)⟩
    · rw [minChild_out a i (by omega)]
      exact ⟨a, by simp, List.Perm.refl _⟩

/-- sifting repairs the heap order at its start position -/
theorem siftDown_ord (fuel : Nat) (a : List (HeapItem α)) (k i : Nat) (hki : k ≤ i) (hf : a.length < fuel + i)
    (h0 : 0 < fuel) (ho : Ord a k (some i)) (hg : Grand a k i) :
    ∃ b, siftDown fuel a i = ok b ∧ b.Perm a ∧ Ord b k none := by
  induction fuel generalizing a i with
  | zero => omega
  | succ fuel ih =>
    unfold siftDown
    by_cases hi : i < a.length
    · obtain ⟨m, hm, hrun, hcase⟩ := minChild_spec a i hi
      rw [hrun, ok_bind]
      rcases hcase with ⟨rfl, hle⟩ | ⟨hne, h1, hpar, hlt, hle⟩
      · refine ⟨a, by simp, List.Perm.refl _, ?_⟩
        intro j hj hj1 hjk _
        by_cases e : (j - 1) / 2 = m
        · simp only [e]; exact hle j hj hj1 e
        · exact ho j hj hj1 hjk (by simpa using e)
      · rw [if_pos hne, rd_lt hm, ok_bind, rd_lt hi, ok_bind, wr_lt hm, ok_bind,
          wr_lt (by simpa using hi), ok_bind]
        have hmi : le a[m] a[i] := (le_total a[i] a[m]).resolve_left hlt
        have hget : ∀ j (hj : j < ((a.set m a[i]).set i a[m]).length),
            ((a.set m a[i]).set i a[m])[j] = if i = j then a[m] else if m = j then a[i] else
              a[j]'(by simpa using hj) := by
          intro j hj; simp only [List.getElem_set]
        obtain ⟨b, hb, hperm, hob⟩ := ih ((a.set m a[i]).set i a[m]) m (by omega) (by simp; omega) (by omega)
          (by
            intro j hj hj1 hjk hjm
            have hjl : j < a.length := by simpa using hj
            have hjm : (j - 1) / 2 ≠ m := by simpa using hjm
            rw [hget, hget]
            by_cases e1 : i = (j - 1) / 2
            · -- j is a child of i
              rw [if_pos e1]
              have hij : i ≠ j := by omega
              simp only [hij, if_false]
              split
              · exact hmi
              · exact hle j hjl hj1 e1.symm
            · rw [if_neg e1, if_neg (by omega)]
              by_cases e2 : i = j
              · subst e2
                simp only [if_true]
                exact hg hj1 hjk m hm h1 hpar
              · have e3 : m ≠ j := by rintro rfl; exact e1 hpar.symm
                simp only [e2, e3, if_false]
                exact ho j hjl hj1 hjk (by simp; omega))
          (by
            intro hm1 _ j hj hj1 hjm
            have hjl : j < a.length := by simpa using hj
            rw [hget, hget]
            have c1 : i ≠ j := by omega
            have c2 : m ≠ j := by omega
            rw [if_pos hpar.symm]
            simp only [c1, c2, if_false]
            have := ho j hjl hj1 (by omega) (by simp; omega)
            simp only [hjm] at this
            exact this)
        exact ⟨b, hb, hperm.trans (swap_perm hi hm hne), hob⟩
    · rw [minChild_out a i (by omega)]
      refine ⟨a, by simp, List.Perm.refl _, ?_⟩
      intro j hj hj1 hjk _
      exact ho j hj hj1 hjk (by simp; omega)

theorem minHeapify_perm (a : List (HeapItem α)) (i : Nat) : ∃ b, minHeapify a i = ok b ∧ b.Perm a :=
  siftDown_perm _ a i (by omega) (by omega)

theorem minHeapify_ord (a : List (HeapItem α)) (k i : Nat) (hki : k ≤ i) (ho : Ord a k (some i)) (hg : Grand a k i) :
    ∃ b, minHeapify a i = ok b ∧ b.Perm a ∧ Ord b k none :=
  siftDown_ord _ a k i hki (by omega) (by omega) ho hg

/-- the root is least -/
theorem root_le {a : List (HeapItem α)} (h : Ord a 0 none) :
    ∀ j (hj : j < a.length), le (a[0]'(by omega)) a[j] := by
  intro j
  induction j using Nat.strongRecOn with
  | _ j ih =>
    intro hj
    by_cases h0 : j = 0
    · subst h0; exact le_refl _
    · exact le_trans (ih ((j - 1) / 2) (by omega) (by omega)) (h j hj (by omega) (by omega) (by simp))

theorem build_full (a : List (HeapItem α)) :
    ∃ b, loopDown (if a.length = 0 then 0 else (a.length - 2) / 2 + 1)
        (fun i items => minHeapify items i) a = ok b ∧ b.Perm a ∧ Ord b 0 none := by
  obtain ⟨b, h1, h2, h3⟩ := loopDown_inv
    (n := if a.length = 0 then 0 else (a.length - 2) / 2 + 1)
    (f := fun i items => minHeapify items i) (s := a)
    (fun k b => b.Perm a ∧ Ord b k none)
    ⟨List.Perm.refl _, by
      intro j hj hj1 hjk _
      exfalso
      split at hjk <;> omega⟩
    (by
      rintro i hi b ⟨hp, ho⟩
      obtain ⟨c, hc, hcp, hco⟩ := minHeapify_ord b i i (Nat.le_refl _)
        (by
          intro j hj hj1 hjk hne
          exact ho j hj hj1 (by have : (j - 1) / 2 ≠ i := by simpa using hne
                                omega) (by simp))
        (by intro h1 h2; omega)
      exact ⟨c, hc, hcp.trans hp, hco⟩)
  exact ⟨b, h1, h2, h3⟩

theorem build_perm (h : Heap α) : ∃ g, h.build = ok g ∧ g.items.Perm h.items ∧ g.allocated = h.allocated ∧
    g.bytes = h.bytes ∧ g.updated = [] ∧ g.heapified = true := by
  unfold build
  by_cases hh : h.heapified = true
  · simp only [hh, Bool.not_true, Bool.false_eq_true, if_false]
    have : ∀ (u : List Nat) (a : List (HeapItem α)),
        ∃ b, u.foldlM (fun items i => minHeapify items i) a = ok b ∧ b.Perm a := by
      intro u
      induction u with
      | nil => intro a; exact ⟨a, rfl, List.Perm.refl _⟩
      | cons i u ih =>
        intro a
        obtain ⟨b, hb, hp⟩ := minHeapify_perm a i
        obtain ⟨c, hc, hp2⟩ := ih b
        exact ⟨c, by rw [List.foldlM_cons, hb, ok_bind, hc], hp2.trans hp⟩
    obtain ⟨b, hb, hp⟩ := this h.updated h.items
    exact ⟨{ h with items := b, updated := [], heapified := true }, by rw [hb]; simp, hp, rfl, rfl, rfl, rfl⟩
  · obtain ⟨b, hb, hp, _⟩ := build_full h.items
    simp only [Bool.not_eq_true] at hh
    simp only [hh, Bool.not_false, if_true, hb, ok_bind]
    exact ⟨_, rfl, hp, rfl, rfl, rfl, rfl⟩

theorem build_ord (h : Heap α) (hh : h.heapified = false) :
    ∃ g, h.build = ok g ∧ g.items.Perm h.items ∧ Ord g.items 0 none ∧ g.updated = [] ∧ g.heapified = true := by
  obtain ⟨b, hb, hp, ho⟩ := build_full h.items
  unfold build
  simp only [hh, Bool.not_false, if_true, hb, ok_bind]
  exact ⟨_, rfl, hp, ho, rfl, rfl⟩

theorem dropLast_set_perm (a : List (HeapItem α)) (h : 0 < a.length) :
    (a[0] :: (a.set 0 (a[a.length - 1]'(by omega))).dropLast).Perm a := by
  cases a with
  | nil => simp at h
  | cons x t =>
    simp only [List.getElem_cons_zero, List.set_cons_zero]
    rcases List.eq_nil_or_concat t with rfl | ⟨t', y, rfl⟩
    · simp
    · simp only [List.length_cons, List.length_append, List.concat_eq_append]
      have : (x :: (t' ++ [y]))[t'.length + 1] = y := by simp
      simp only [List.length_nil, Nat.zero_add, Nat.add_sub_cancel, this]
      rw [← List.cons_append, List.dropLast_concat]
      refine List.Perm.cons x ?_
      exact (List.perm_append_singleton y t').symm

theorem extractMin_perm (h : Heap α) (hne : 0 < h.items.length) :
    ∃ g, h.extractMin = ok (some h.items[0].content, g) ∧ (h.items[0] :: g.items).Perm h.items ∧
      g.allocated = h.allocated ∧ g.bytes = h.bytes ∧ g.updated = h.updated ∧ g.heapified = h.heapified := by
  unfold extractMin
  rw [if_neg (by omega), rd_lt hne, ok_bind, rd_lt (by omega), ok_bind, wr_lt hne, ok_bind]
  obtain ⟨b, hb, hp⟩ := minHeapify_perm (h.items.set 0 (h.items[h.items.length - 1]'(by omega))).dropLast 0
  rw [hb, ok_bind]
  exact ⟨_, rfl, (List.Perm.cons _ hp).trans (dropLast_set_perm h.items hne), rfl, rfl, rfl, rfl⟩

theorem extractMin_ord (h : Heap α) (hne : 0 < h.items.length) (ho : Ord h.items 0 none) :
    ∃ g, h.extractMin = ok (some h.items[0].content, g) ∧ (h.items[0] :: g.items).Perm h.items ∧
      Ord g.items 0 none := by
  unfold extractMin
  rw [if_neg (by omega), rd_lt hne, ok_bind, rd_lt (by omega), ok_bind, wr_lt hne, ok_bind]
  obtain ⟨b, hb, hp, hbo⟩ := minHeapify_ord
    (h.items.set 0 (h.items[h.items.length - 1]'(by omega))).dropLast 0 0 (Nat.le_refl _)
    (by
      intro j hj hj1 hjk hne'
      have hne' : (j - 1) / 2 ≠ 0 := by simpa using hne'
      have hjl : j < h.items.length := by simp at hj; omega
      simp only [List.getElem_dropLast, List.getElem_set]
      rw [if_neg (by omega), if_neg (by omega)]
      exact ho j hjl hj1 hjk (by simp))
    (by intro h1 h2; omega)
  rw [hb, ok_bind]
  exact ⟨_, rfl, (List.Perm.cons _ hp).trans (dropLast_set_perm h.items hne), hbo⟩

end Nip.Heap
