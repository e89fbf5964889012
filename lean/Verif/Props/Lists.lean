import Verif.ListsLemmas
import Mathlib.Data.List.Induction

/-!
# Properties C20–C21: linked lists and lookups
-/

namespace Nip.Props

open Res LList

/-- The operations on a list. -/
inductive ListOp (α : Type) where
  | append (x : α)
  | prepend (x : α)
  | empty

/-- What each operation means for a sequence. -/
def ListOp.onSeq {α : Type} (xs : List α) : ListOp α → List α
  | .append x => xs ++ [x]
  | .prepend x => x :: xs
  | .empty => []

/-- Run an operation of the library. -/
def ListOp.run {α : Type} (st : Mem α × LList) : ListOp α → Res (Mem α × LList)
  | .append x => LList.append st.1 st.2 x
  | .prepend x => LList.prepend st.1 st.2 x
  | .empty => LList.empty st.1 st.2

theorem ops_rep {α : Type} (m0 : Mem α) (ops : List (ListOp α)) :
    ∃ (m : Mem α) (l : LList) (as : List Nat), ops.foldlM ListOp.run (m0, LList.new) = ok (m, l) ∧
      Rep m l as (ops.foldl ListOp.onSeq []) ∧ (∀ a ∈ as, m0.length ≤ a) ∧ m0.length ≤ m.length ∧
      (∀ a, a < m0.length → m[a]? = m0[a]?) := by
  induction ops using List.reverseRecOn with
  | nil => exact ⟨m0, LList.new, [], rfl, ⟨by simp, rfl, rfl, rfl, rfl, by simp⟩, by simp, Nat.le_refl _, fun _ _ => rfl⟩
  | append_singleton ops op ih =>
    obtain ⟨m, l, as, hrun, hrep, hge, hlen, hkeep⟩ := ih
    rw [List.foldlM_append, hrun, List.foldl_append]
    simp only [List.foldlM_cons, List.foldlM_nil, List.foldl_cons, List.foldl_nil, ok_bind]
    cases op with
    | append x =>
      obtain ⟨m', l', h1, h2, h3, h4⟩ := append_rep hrep x
      refine ⟨m', l', _, by simp only [ListOp.run, h1]; rfl, h2, ?_, by omega, ?_⟩
      · intro a ha; rcases List.mem_append.mp ha with h | h
        · exact hge a h
        · have : a = m.length := by simpa using h
          omega
      · intro a ha; rw [h4 a (by omega) (fun h => by have := hge a h; omega), hkeep a ha]
    | prepend x =>
      obtain ⟨m', l', h1, h2, h3, h4⟩ := prepend_rep hrep x
      refine ⟨m', l', _, by simp only [ListOp.run, h1]; rfl, h2, ?_, by omega, ?_⟩
      · intro a ha; rcases List.mem_cons.mp ha with h | h
        · omega
        · exact hge a h
      · intro a ha; rw [h4 a (by omega) (fun h => by have := hge a h; omega), hkeep a ha]
    | empty =>
      obtain ⟨m', l', h1, h2, h3, h4, h5⟩ := empty_rep hrep
      refine ⟨m', l', _, by simp only [ListOp.run, h1]; rfl, h2, by simp, by omega, ?_⟩
      intro a ha; rw [h5 a (fun h => by have := hge a h; omega), hkeep a ha]

/-- **C20**: starting from a new list in any memory, every history of operations runs without touching a freed or foreign cell; the
resulting list read forwards is the expected sequence, read backwards its reverse; the length field is its length; the array made of
it is the same sequence; and no cell that existed before (of any other list) has changed. -/
theorem C20_sequence {α : Type} (m0 : Mem α) (ops : List (ListOp α)) :
    ∃ (m : Mem α) (l : LList), ops.foldlM ListOp.run (m0, LList.new) = ok (m, l) ∧
      LList.forward (m.length + 1) m l.first = ok (ops.foldl ListOp.onSeq []) ∧
      LList.backward (m.length + 1) m l.last = ok (ops.foldl ListOp.onSeq []).reverse ∧
      l.length = (ops.foldl ListOp.onSeq []).length ∧
      LList.toArray m l = ok (ops.foldl ListOp.onSeq []) ∧
      (∀ a, a < m0.length → m[a]? = m0[a]?) := by
  obtain ⟨m, l, as, hrun, hrep, hge, hlen, hkeep⟩ := ops_rep m0 ops
  refine ⟨m, l, hrun, ?_, ?_, ?_, toArray_eq hrep, hkeep⟩
  · have := forward_from hrep as.length 0 (m.length + 1) (by omega) (by have := hrep.le_mem; omega)
    rwa [List.drop_zero, ← List.head?_eq_getElem?, ← hrep.first] at this
  · have := backward_from hrep as.length (m.length + 1) (Nat.le_refl _) (by have := hrep.le_mem; omega)
    rwa [← last_prev, ← hrep.last, ← hrep.len, List.take_length] at this
  · rw [hrep.length, hrep.len]

/-- a concrete history with emptying in the middle, next to another list's cell -/
example : (([.append 1, .prepend 2, .empty, .append 3, .append 4, .prepend 5] : List (ListOp Nat)).foldlM ListOp.run
    ([some ⟨9, none, none⟩], LList.new)).bind (fun r => toArray r.1 r.2) = ok [5, 3, 4] := by decide

/-- **C20** (freeing): emptying a list frees every cell of the list, each exactly once (freeing twice would be undefined behaviour),
and no other cell: a memory with no live cell but those of the list has none afterwards. -/
theorem C20_empty_frees {α : Type} (ops : List (ListOp α)) :
    ∃ (m : Mem α) (l : LList), (ops ++ [ListOp.empty]).foldlM ListOp.run ([], LList.new) = ok (m, l) ∧ ∀ c ∈ m, c = none := by
  have key : ∀ ops : List (ListOp α), ∃ (m : Mem α) (l : LList) (as : List Nat), ops.foldlM ListOp.run ([], LList.new) = ok (m, l) ∧
      Rep m l as (ops.foldl ListOp.onSeq []) ∧ ∀ (a : Nat), a ∉ as → ∀ c, m[a]? = some c → c = none := by
    intro ops
    induction ops using List.reverseRecOn with
    | nil => exact ⟨[], LList.new, [], rfl, ⟨by simp, rfl, rfl, rfl, rfl, by simp⟩, by simp⟩
    | append_singleton ops op ih =>
      obtain ⟨m, l, as, hrun, hrep, hdead⟩ := ih
      rw [List.foldlM_append, hrun, List.foldl_append]
      simp only [List.foldlM_cons, List.foldlM_nil, List.foldl_cons, List.foldl_nil, ok_bind]
      cases op with
      | append x =>
        obtain ⟨m', l', h1, h2, h3, h4⟩ := append_rep hrep x
        refine ⟨m', l', _, by simp only [ListOp.run, h1]; rfl, h2, ?_⟩
        intro a ha c hc
        have ha' : a ∉ as ∧ a ≠ m.length := by simpa using ha
        have hlt := (List.getElem?_eq_some_iff.mp hc).1
        rw [h4 a (by omega) ha'.1] at hc
        exact hdead a ha'.1 c hc
      | prepend x =>
        obtain ⟨m', l', h1, h2, h3, h4⟩ := prepend_rep hrep x
        refine ⟨m', l', _, by simp only [ListOp.run, h1]; rfl, h2, ?_⟩
        intro a ha c hc
        have ha' : a ≠ m.length ∧ a ∉ as := by simpa using ha
        have hlt := (List.getElem?_eq_some_iff.mp hc).1
        rw [h4 a (by omega) ha'.2] at hc
        exact hdead a ha'.2 c hc
      | empty =>
        obtain ⟨m', l', h1, h2, h3, h4, h5⟩ := empty_rep hrep
        refine ⟨m', l', _, by simp only [ListOp.run, h1]; rfl, h2, ?_⟩
        intro a _ c hc
        by_cases ha : a ∈ as
        · rw [h4 a ha] at hc; cases hc; rfl
        · rw [h5 a ha] at hc; exact hdead a ha c hc
  obtain ⟨m, l, as, h1, h2, h3⟩ := key (ops ++ [ListOp.empty])
  refine ⟨m, l, h1, ?_⟩
  have : as = [] := by
    have := h2.len
    rw [List.foldl_append] at this
    exact List.length_eq_zero_iff.mp (by simpa [ListOp.onSeq] using this.symm)
  subst this
  intro c hc
  obtain ⟨a, ha⟩ := List.getElem?_of_mem hc
  exact h3 a (by simp) c ha

example : (([.append 1, .prepend 2, .append 4, .empty] : List (ListOp Nat)).foldlM ListOp.run
    ([], LList.new)).bind (fun r => ok r.1) = ok [none, none, none] := by decide

/-! ## C21 -/

/-- **C21**: looking up a key in any key/value list returns the value of the earliest entry with that key, and absence exactly when
there is none. -/
theorem C21_lookup (m0 : Mem (String × String)) (ops : List (ListOp (String × String))) (key : String) :
    ∃ m l r, ops.foldlM ListOp.run (m0, LList.new) = ok (m, l) ∧ pairSearch m l key = ok r ∧
      (∀ v, r = some v ↔ ∃ i : Nat, (ops.foldl ListOp.onSeq [])[i]? = some (key, v) ∧
        ∀ j, j < i → ∀ w, (ops.foldl ListOp.onSeq [])[j]? ≠ some (key, w)) ∧
      (r = none ↔ ∀ w, (key, w) ∉ ops.foldl ListOp.onSeq []) := by
  obtain ⟨m, l, as, hrun, hrep, _, _, _⟩ := ops_rep m0 ops
  refine ⟨m, l, ((ops.foldl ListOp.onSeq []).find? (fun kv => key == kv.1)).map (·.2), hrun, ?_, ?_, ?_⟩
  · unfold pairSearch
    rw [hrep.first, List.head?_eq_getElem?,
      searchFrom_eq hrep _ as.length 0 _ (by omega) (by have := hrep.le_mem; omega)]
    rfl
  · intro v
    rw [Option.map_eq_some_iff]
    constructor
    · rintro ⟨⟨k, w⟩, hf, rfl⟩
      obtain ⟨hk, i, hi, hget, hbefore⟩ := List.find?_eq_some_iff_getElem.mp hf
      have hk' : key = k := by simpa using hk
      subst hk'
      refine ⟨i, by rw [List.getElem?_eq_getElem hi, hget], ?_⟩
      intro j hj w' hc
      obtain ⟨hj', hje⟩ := List.getElem?_eq_some_iff.mp hc
      have := hbefore j hj
      rw [hje] at this; simp at this
    · rintro ⟨i, hi, hbefore⟩
      obtain ⟨hi', hie⟩ := List.getElem?_eq_some_iff.mp hi
      refine ⟨(key, v), List.find?_eq_some_iff_getElem.mpr ⟨by simp, i, hi', hie, ?_⟩, rfl⟩
      intro j hj
      have := hbefore j hj
      have hjl : j < (ops.foldl ListOp.onSeq []).length := by omega
      rw [List.getElem?_eq_getElem hjl] at this
      rcases hx : (ops.foldl ListOp.onSeq [])[j] with ⟨k, w⟩
      have hk := this w
      rw [hx] at hk
      simp at hk ⊢
      exact fun e => hk e.symm
  · rw [Option.map_eq_none_iff, List.find?_eq_none]
    constructor
    · intro h w hw; have := h _ hw; simp at this
    · rintro h ⟨k, w⟩ hw hk
      have hk' : key = k := by simpa using hk
      subst hk'
      exact h w hw

example : (([.append ("a", "1"), .append ("b", "2"), .append ("b", "3"), .prepend ("a", "0")] : List (ListOp (String × String))).foldlM
    ListOp.run ([], LList.new)).bind (fun r => do
      let x ← pairSearch r.1 r.2 "a"
      let y ← pairSearch r.1 r.2 "b"
      let z ← pairSearch r.1 r.2 "c"
      ok (x, y, z)) = ok (some "0", some "2", none) := by decide

/-- **C21** (membership): a string is reported present exactly when it is in the list. -/
theorem C21_contains (m0 : Mem String) (ops : List (ListOp String)) (s : String) :
    ∃ m l b, ops.foldlM ListOp.run (m0, LList.new) = ok (m, l) ∧ stringContains m l s = ok b ∧
      (b = true ↔ s ∈ ops.foldl ListOp.onSeq []) := by
  obtain ⟨m, l, as, hrun, hrep, _, _, _⟩ := ops_rep m0 ops
  refine ⟨m, l, ((ops.foldl ListOp.onSeq []).find? (fun t => s == t)).isSome, hrun, ?_, ?_⟩
  · unfold stringContains
    rw [hrep.first, List.head?_eq_getElem?,
      searchFrom_eq hrep _ as.length 0 _ (by omega) (by have := hrep.le_mem; omega)]
    rfl
  · rw [List.find?_isSome]; simp

/-- **C21** (sets): a set (array of flags) is reported covered exactly when some member of the list contains all its elements. -/
theorem C21_subset (m0 : Mem (List Bool)) (ops : List (ListOp (List Bool))) (i : List Bool)
    (hlen : ∀ x ∈ ops.foldl ListOp.onSeq [], i.length = x.length) :
    ∃ m l b, ops.foldlM ListOp.run (m0, LList.new) = ok (m, l) ∧ containsSubset m l i i.length = ok b ∧
      (b = true ↔ ∃ x ∈ ops.foldl ListOp.onSeq [], ∀ v : Nat, i[v]? = some true → x[v]? = some true) := by
  classical
  obtain ⟨m, l, as, hrun, hrep, _, _, _⟩ := ops_rep m0 ops
  exact ⟨m, l, _, hrun, containsSubset_eq hrep i hlen, by rw [decide_eq_true_eq]⟩

example : (([.append [true, false, true], .append [false, true, true]] : List (ListOp (List Bool))).foldlM
    ListOp.run ([], LList.new)).bind (fun r => do
      let x ← containsSubset r.1 r.2 [false, true, false] 3
      let y ← containsSubset r.1 r.2 [true, true, false] 3
      ok (x, y)) = ok (true, false) := by decide

end Nip.Props
