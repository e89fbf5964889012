import Verif.Lists
import Mathlib.Data.List.Basic
import Mathlib.Data.List.Nodup
import Mathlib.Data.List.NodupEquivFin
import Mathlib.Data.List.Perm.Subperm
import Mathlib.Tactic.Common

/-! # Lemmas about linked lists -/

namespace Nip.LList

open Res

variable {α : Type}

/-- the predecessor address -/
def prev (as : List Nat) (i : Nat) : Option Nat := if i = 0 then none else as[i - 1]?

/-- `l` in memory `m` consists of the cells `as` holding `xs` -/
structure Rep (m : Mem α) (l : LList) (as : List Nat) (xs : List α) : Prop where
  nodup : as.Nodup
  len : xs.length = as.length
  length : l.length = as.length
  first : l.first = as.head?
  last : l.last = as.getLast?
  cell : ∀ i (h : i < as.length) (h' : i < xs.length), m[as[i]]? = some (some ⟨xs[i], as[i + 1]?, prev as i⟩)

theorem Rep.lt {m : Mem α} {l : LList} {as : List Nat} {xs : List α} (h : Rep m l as xs) :
    ∀ a ∈ as, a < m.length := by
  intro a ha
  obtain ⟨i, hi, rfl⟩ := List.getElem_of_mem ha
  have := h.cell i hi (by rw [h.len]; exact hi)
  exact (List.getElem?_eq_some_iff.mp this).1

theorem Rep.le_mem {m : Mem α} {l : LList} {as : List Nat} {xs : List α} (h : Rep m l as xs) :
    as.length ≤ m.length := by
  have hsub : as ⊆ List.range m.length := fun a ha => by simpa using h.lt a ha
  simpa using (List.subperm_of_subset h.nodup hsub).length_le

theorem deref_eq {m : Mem α} {a : Nat} {c : Cell α} (h : m[a]? = some (some c)) :
    deref m (some a) = ok c := by simp [deref, h]

theorem store_eq {m : Mem α} {a : Nat} {c d : Cell α} (h : m[a]? = some (some c)) :
    store m (some a) d = ok (m.set a (some d)) := by simp [store, h]

theorem free_eq {m : Mem α} {a : Nat} {c : Cell α} (h : m[a]? = some (some c)) :
    free m (some a) = ok (m.set a none) := by simp [free, h]

theorem append_rep {m : Mem α} {l : LList} {as : List Nat} {xs : List α} (h : Rep m l as xs) (x : α) :
    ∃ m' l', append m l x = ok (m', l') ∧ Rep m' l' (as ++ [m.length]) (xs ++ [x]) ∧
      m'.length = m.length + 1 ∧ ∀ a, a < m.length → a ∉ as → m'[a]? = m[a]? := by
  have hfresh : m.length ∉ as := fun hm => Nat.lt_irrefl _ (h.lt _ hm)
  have hnd : (as ++ [m.length]).Nodup := by
    rw [List.nodup_append]; refine ⟨h.nodup, by simp, ?_⟩
    intro a ha b hb e
    have : b = m.length := by simpa using hb
    subst e; exact hfresh (this ▸ ha)
  rcases List.eq_nil_or_concat as with rfl | ⟨as', z, rfl⟩
  · have hxs : xs = [] := List.length_eq_zero_iff.mp (by simpa using h.len)
    subst hxs
    refine ⟨m ++ [some ⟨x, none, l.last⟩], ⟨l.length + 1, some m.length, some m.length⟩, ?_,
      ⟨hnd, rfl, ?_, ?_, ?_, ?_⟩, by simp, fun a ha _ => by simp [List.getElem?_append_left ha]⟩
    · unfold append
      have : l.first = none := by simpa using h.first
      simp only [this, if_true]
    · have := h.length; simp at this; simp [this]
    · simp
    · simp
    · intro i hi hi'
      have : i = 0 := by simpa using hi
      subst this
      have := h.last
      simp at this
      simp [prev, this]
  · have hfirst : l.first ≠ none := by rw [h.first]; simp
    have hlast : l.last = some z := by rw [h.last]; simp
    have hzi : as'.length < (as'.concat z).length := by simp
    have hcz := h.cell as'.length hzi (by rw [h.len]; exact hzi)
    have hz : (as'.concat z)[as'.length] = z := by simp
    rw [hz] at hcz
    have hzlt : z < m.length := h.lt z (by simp)
    have hcz' := (List.getElem?_append_left (l₂ := [some (⟨x, none, l.last⟩ : Cell α)]) hzlt).trans hcz
    refine ⟨(m ++ [some (⟨x, none, l.last⟩ : Cell α)]).set z (some ⟨xs[as'.length]'(by rw [h.len]; exact hzi), some m.length,
        prev (as'.concat z) as'.length⟩), ⟨l.length + 1, l.first, some m.length⟩, ?_,
      ⟨hnd, by simp [h.len], ?_, ?_, ?_, ?_⟩, ?_, ?_⟩
    · unfold append
      simp only [hfirst, if_false]
      rw [hlast] at hcz' ⊢
      rw [deref_eq hcz', ok_bind, store_eq hcz', ok_bind]
    · simp [h.length]
    · rw [h.first]; simp
    · simp
    · intro i hi hi'
      simp only [List.length_append, List.length_cons, List.length_nil, Nat.zero_add] at hi
      by_cases hin : i < (as'.concat z).length
      · have hci := h.cell i hin (by rw [h.len]; exact hin)
        have hai : (as'.concat z)[i] < m.length := h.lt _ (List.getElem_mem _)
        have e1 : (as'.concat z ++ [m.length])[i] = (as'.concat z)[i] := List.getElem_append_left hin
        have e2 : (xs ++ [x])[i] = xs[i]'(by rw [h.len]; exact hin) :=
          List.getElem_append_left (by rw [h.len]; exact hin)
        have e3 : prev (as'.concat z ++ [m.length]) i = prev (as'.concat z) i := by
          unfold prev; split
          · rfl
          · rw [List.getElem?_append_left (by omega)]
        rw [e1, e2, e3, List.getElem?_set]
        by_cases hiz : i = as'.length
        · subst hiz
          have e4 : (as'.concat z ++ [m.length])[as'.length + 1]? = some m.length := by simp
          simp only [hz, if_true, e4]
          rw [if_pos (by simp; omega)]
        · have hne : z ≠ (as'.concat z)[i] := by
            intro e
            exact hiz ((List.Nodup.getElem_inj_iff h.nodup).mp (hz.trans e)).symm
          rw [if_neg hne, List.getElem?_append_left hai, hci]
          have : i + 1 < (as'.concat z).length := by simp at hin ⊢; omega
          rw [List.getElem?_append_left this]
      · have hie : i = (as'.concat z).length := by simp at hi hin ⊢; omega
        subst hie
        have e1 : (as'.concat z ++ [m.length])[(as'.concat z).length] = m.length := by simp
        have e2 : (xs ++ [x])[(as'.concat z).length] = x := by
          rw [List.getElem_append_right (by rw [h.len])]; simp
        have e3 : (as'.concat z ++ [m.length])[(as'.concat z).length + 1]? = none := by simp
        have e4 : prev (as'.concat z ++ [m.length]) (as'.concat z).length = some z := by simp [prev]
        have hne : z ≠ m.length := by omega
        rw [e1, e2, e3, e4, List.getElem?_set, if_neg hne]
        simp [hlast]
    · simp
    · intro a ha hna
      have : z ≠ a := by rintro rfl; exact hna (by simp)
      rw [List.getElem?_set, if_neg this, List.getElem?_append_left ha]

theorem prepend_rep {m : Mem α} {l : LList} {as : List Nat} {xs : List α} (h : Rep m l as xs) (x : α) :
    ∃ m' l', prepend m l x = ok (m', l') ∧ Rep m' l' (m.length :: as) (x :: xs) ∧
      m'.length = m.length + 1 ∧ ∀ a, a < m.length → a ∉ as → m'[a]? = m[a]? := by
  have hfresh : m.length ∉ as := fun hm => Nat.lt_irrefl _ (h.lt _ hm)
  have hnd : (m.length :: as).Nodup := List.nodup_cons.mpr ⟨hfresh, h.nodup⟩
  cases as with
  | nil =>
    have hxs : xs = [] := List.length_eq_zero_iff.mp (by simpa using h.len)
    subst hxs
    refine ⟨m ++ [some ⟨x, l.first, none⟩], ⟨l.length + 1, some m.length, some m.length⟩, ?_,
      ⟨hnd, rfl, ?_, ?_, ?_, ?_⟩, by simp, fun a ha _ => by simp [List.getElem?_append_left ha]⟩
    · unfold prepend
      have : l.last = none := by simpa using h.last
      simp only [this, if_true]
    · have := h.length; simp at this; simp [this]
    · simp
    · simp
    · intro i hi hi'
      have : i = 0 := by simpa using hi
      subst this
      have := h.first
      simp at this
      simp [prev, this]
  | cons z as' =>
    have hlast : l.last ≠ none := by rw [h.last]; simp
    have hfirst : l.first = some z := by rw [h.first]; simp
    have hcz := h.cell 0 (by simp) (by rw [h.len]; simp)
    simp only [List.getElem_cons_zero] at hcz
    have hzlt : z < m.length := h.lt z (by simp)
    have hcz' := (List.getElem?_append_left (l₂ := [some (⟨x, l.first, none⟩ : Cell α)]) hzlt).trans hcz
    refine ⟨(m ++ [some (⟨x, l.first, none⟩ : Cell α)]).set z (some ⟨xs[0]'(by rw [h.len]; simp), (z :: as')[0 + 1]?, some m.length⟩),
      ⟨l.length + 1, some m.length, l.last⟩, ?_,
      ⟨hnd, by simp [h.len], ?_, ?_, ?_, ?_⟩, ?_, ?_⟩
    · unfold prepend
      simp only [hlast, if_false]
      rw [hfirst] at hcz' ⊢
      rw [deref_eq hcz', ok_bind, store_eq hcz', ok_bind]
    · simp [h.length]
    · simp
    · rw [h.last]; simp
    · intro i hi hi'
      cases i with
      | zero =>
        have hne : z ≠ m.length := by omega
        simp only [List.getElem_cons_zero]
        rw [List.getElem?_set, if_neg hne]
        simp [prev, hfirst]
      | succ i =>
        have hin : i < (z :: as').length := by simpa using hi
        have hci := h.cell i hin (by rw [h.len]; exact hin)
        have hai : (z :: as')[i] < m.length := h.lt _ (List.getElem_mem _)
        simp only [List.getElem_cons_succ, List.getElem?_cons_succ]
        rw [List.getElem?_set]
        cases i with
        | zero =>
          simp only [List.getElem_cons_zero, if_true]
          rw [if_pos (by simp; omega)]
          simp [prev]
        | succ i =>
          have hne : z ≠ (z :: as')[i + 1] := by
            intro e
            have e' : (z :: as')[0] = (z :: as')[i + 1] := by simpa using e
            have := (List.Nodup.getElem_inj_iff h.nodup).mp e'
            omega
          rw [if_neg hne, List.getElem?_append_left hai, hci]
          simp [prev]
    · simp
    · intro a ha hna
      have : z ≠ a := by rintro rfl; exact hna (by simp)
      rw [List.getElem?_set, if_neg this, List.getElem?_append_left ha]

theorem forward_from {m : Mem α} {l : LList} {as : List Nat} {xs : List α} (h : Rep m l as xs) :
    ∀ n i fuel, i + n = as.length → n ≤ fuel → forward fuel m as[i]? = ok (xs.drop i) := by
  intro n
  induction n with
  | zero =>
    intro i fuel hi _
    have h1 : as[i]? = none := by simp; omega
    have h2 : xs.drop i = [] := by simp [h.len]; omega
    rw [h1, h2]; cases fuel <;> rfl
  | succ n ih =>
    intro i fuel hi hf
    cases fuel with
    | zero => omega
    | succ fuel =>
      have hil : i < as.length := by omega
      have hix : i < xs.length := by rw [h.len]; exact hil
      rw [List.getElem?_eq_getElem hil]
      unfold forward
      rw [deref_eq (h.cell i hil hix), ok_bind, ih (i + 1) fuel (by omega) (by omega), ok_bind,
        List.drop_eq_getElem_cons hix]

theorem backward_from {m : Mem α} {l : LList} {as : List Nat} {xs : List α} (h : Rep m l as xs) :
    ∀ i fuel, i ≤ as.length → i ≤ fuel → backward fuel m (prev as i) = ok (xs.take i).reverse := by
  intro i
  induction i with
  | zero => intro fuel _ _; simp [prev]; cases fuel <;> rfl
  | succ i ih =>
    intro fuel hi hf
    cases fuel with
    | zero => omega
    | succ fuel =>
      have hil : i < as.length := by omega
      have hix : i < xs.length := by rw [h.len]; exact hil
      have : prev as (i + 1) = some as[i] := by simp [prev, hil]
      rw [this]
      unfold backward
      rw [deref_eq (h.cell i hil hix), ok_bind, ih fuel (by omega) (by omega), ok_bind,
        List.take_succ_eq_append_getElem hix, List.reverse_append]
      rfl

theorem last_prev (as : List Nat) : as.getLast? = prev as as.length := by
  unfold prev
  rw [List.getLast?_eq_getElem?]
  split
  · rename_i h; simp [h]
  · rfl

theorem toArray_eq {m : Mem α} {l : LList} {as : List Nat} {xs : List α} (h : Rep m l as xs) :
    toArray m l = ok xs := by
  obtain ⟨st, hrun, h1, h2⟩ := loop_inv (n := l.length)
    (f := fun _ (st : Option Nat × List α) => do
      let c ← deref m st.1
      ok (c.fwd, st.2 ++ [c.data])) (s := (l.first, []))
    (fun i st => st.1 = as[i]? ∧ st.2 = xs.take i)
    ⟨by rw [h.first]; simp [List.head?_eq_getElem?], by simp⟩
    (by
      rintro i hi ⟨p, acc⟩ ⟨hp, hacc⟩
      have hil : i < as.length := by rw [← h.length]; exact hi
      have hix : i < xs.length := by rw [h.len]; exact hil
      simp only at hp hacc
      refine ⟨(as[i + 1]?, acc ++ [xs[i]]), ?_, rfl, ?_⟩
      · simp only [hp, List.getElem?_eq_getElem hil, deref_eq (h.cell i hil hix), ok_bind]
      · rw [hacc, List.take_succ_eq_append_getElem hix])
  unfold toArray
  rw [hrun, ok_bind, h2, h.length, ← h.len, List.take_length]

theorem searchFrom_eq {m : Mem α} {l : LList} {as : List Nat} {xs : List α} (h : Rep m l as xs) (p : α → Bool) :
    ∀ n i fuel, i + n = as.length → n ≤ fuel → searchFrom p fuel m as[i]? = ok ((xs.drop i).find? p) := by
  intro n
  induction n with
  | zero =>
    intro i fuel hi _
    have h1 : as[i]? = none := by simp; omega
    have h2 : xs.drop i = [] := by simp [h.len]; omega
    rw [h1, h2]; cases fuel <;> rfl
  | succ n ih =>
    intro i fuel hi hf
    cases fuel with
    | zero => omega
    | succ fuel =>
      have hil : i < as.length := by omega
      have hix : i < xs.length := by rw [h.len]; exact hil
      rw [List.getElem?_eq_getElem hil]
      unfold searchFrom
      rw [deref_eq (h.cell i hil hix), ok_bind, ih (i + 1) fuel (by omega) (by omega),
        List.drop_eq_getElem_cons hix, List.find?_cons]
      cases p xs[i] <;> simp

open Classical in
theorem notSubset_eq (i data : List Bool) (h : i.length = data.length) :
    notSubset i data i.length = ok (decide (∃ v : Nat, i[v]? = some true ∧ data[v]? = some false)) := by
  unfold notSubset
  rw [firstIdx_eq (p := fun v => (i[v]? == some true) && (data[v]? == some false)) 0 i.length]
  · simp only [ok_bind]
    congr 1
    rw [Bool.eq_iff_iff, List.find?_isSome]
    simp only [decide_eq_true_eq, Bool.and_eq_true, beq_iff_eq]
    constructor
    · rintro ⟨v, _, hv⟩; exact ⟨v, hv⟩
    · rintro ⟨v, hv⟩
      have := (List.getElem?_eq_some_iff.mp hv.1).1
      exact ⟨v, by simp; omega, hv⟩
  · intro j _ hj
    have h1 : j < i.length := by omega
    have h2 : j < data.length := by omega
    rw [rd_lt h1, rd_lt h2, List.getElem?_eq_getElem h1, List.getElem?_eq_getElem h2]
    cases i[j] <;> cases data[j] <;> simp

open Classical in
theorem containsSubset_eq {m : Mem (List Bool)} {l : LList} {as : List Nat} {xs : List (List Bool)} (h : Rep m l as xs)
    (i : List Bool) (hlen : ∀ x ∈ xs, i.length = x.length) :
    containsSubset m l i i.length = ok (decide (∃ x ∈ xs, ∀ v : Nat, i[v]? = some true → x[v]? = some true)) := by
  have key : ∀ n k fuel, k + n = as.length → n ≤ fuel → containsSubsetFrom i i.length fuel m as[k]?
      = ok (decide (∃ x ∈ xs.drop k, ∀ v : Nat, i[v]? = some true → x[v]? = some true)) := by
    intro n
    induction n with
    | zero =>
      intro k fuel hk _
      have h1 : as[k]? = none := by simp; omega
      have h2 : xs.drop k = [] := by simp [h.len]; omega
      rw [h1, h2]; cases fuel <;> simp [containsSubsetFrom]
    | succ n ih =>
      intro k fuel hk hf
      cases fuel with
      | zero => omega
      | succ fuel =>
        have hil : k < as.length := by omega
        have hix : k < xs.length := by rw [h.len]; exact hil
        rw [List.getElem?_eq_getElem hil]
        unfold containsSubsetFrom
        have hl := hlen _ (List.getElem_mem hix)
        rw [deref_eq (h.cell k hil hix), ok_bind]
        simp only
        rw [notSubset_eq _ _ hl, ok_bind, ih (k + 1) fuel (by omega) (by omega), List.drop_eq_getElem_cons hix]
        have hiff : (∃ v : Nat, i[v]? = some true ∧ xs[k][v]? = some false) ↔
            ¬ ∀ v : Nat, i[v]? = some true → xs[k][v]? = some true := by
          simp only [not_forall]
          constructor
          · rintro ⟨v, h1, h2⟩; exact ⟨v, h1, by simp [h2]⟩
          · rintro ⟨v, h1, h2⟩
            have hv : v < xs[k].length := by rw [← hl]; exact (List.getElem?_eq_some_iff.mp h1).1
            refine ⟨v, h1, ?_⟩
            rw [List.getElem?_eq_getElem hv] at h2 ⊢
            cases hb : xs[k][v] <;> simp_all
        by_cases hs : ∀ v : Nat, i[v]? = some true → xs[k][v]? = some true
        · rw [if_neg (by simpa using fun v h1 h2 => by simpa [h2] using hs v h1)]
          congr 1; symm
          rw [decide_eq_true_eq]
          exact ⟨_, List.mem_cons_self, hs⟩
        · rw [if_pos (by rw [decide_eq_true_eq]; exact hiff.mpr hs)]
          congr 1
          rw [decide_eq_decide]
          constructor
          · rintro ⟨x, hx, hP⟩; exact ⟨x, List.mem_cons_of_mem _ hx, hP⟩
          · rintro ⟨x, hx, hP⟩
            rcases List.mem_cons.mp hx with rfl | hx
            · exact absurd hP hs
            · exact ⟨x, hx, hP⟩
  unfold containsSubset
  rw [h.first, List.head?_eq_getElem?, key as.length 0 _ (by omega) (by have := h.le_mem; omega), List.drop_zero]

/-- state of memory while emptying: cells from position `i` on are freed -/
def FreedFrom (m0 m : Mem α) (as : List Nat) (i : Nat) : Prop :=
  m.length = m0.length ∧
  ∀ a, m[a]? = if a ∈ as.drop i then some none else m0[a]?

theorem mem_drop_succ {as : List Nat} {i : Nat} (hi : i < as.length) (a : Nat) :
    a ∈ as.drop i ↔ a = as[i] ∨ a ∈ as.drop (i + 1) := by
  rw [List.drop_eq_getElem_cons hi, List.mem_cons]

theorem free_step {m0 m : Mem α} {l : LList} {as : List Nat} {xs : List α} (h : Rep m0 l as xs) {i : Nat}
    (hf : FreedFrom m0 m as (i + 1)) (hi : i < as.length) :
    ∃ m', free m (some as[i]) = ok m' ∧ FreedFrom m0 m' as i := by
  have hnot : as[i] ∉ as.drop (i + 1) := by
    have := h.nodup
    rw [← List.take_append_drop i as, List.drop_eq_getElem_cons hi] at this
    have := (List.nodup_append.mp this).2.1
    exact (List.nodup_cons.mp this).1
  have hc := h.cell i hi (by rw [h.len]; exact hi)
  have hm : m[as[i]]? = _ := (hf.2 as[i]).trans ((if_neg hnot).trans hc)
  refine ⟨_, free_eq hm, by simpa using hf.1, ?_⟩
  intro a
  rw [List.getElem?_set]
  simp only [mem_drop_succ hi]
  by_cases e : as[i] = a
  · subst e
    have : as[i] < m.length := by rw [hf.1]; exact h.lt _ (List.getElem_mem _)
    simp [this]
  · have e' : a ≠ as[i] := fun x => e x.symm
    rw [if_neg e, hf.2 a]
    simp [e']

theorem freeLoop_eq {m0 : Mem α} {l : LList} {as : List Nat} {xs : List α} (h : Rep m0 l as xs) :
    ∀ i fuel m, i ≤ as.length → i ≤ fuel → (FreedFrom m0 m as (i + 1)) →
      ∃ m', freeLoop fuel m (prev as i) = ok m' ∧ FreedFrom m0 m' as 1 := by
  intro i
  induction i with
  | zero =>
    intro fuel m _ _ hf
    refine ⟨m, ?_, hf⟩
    simp only [prev, if_true]; cases fuel <;> rfl
  | succ i ih =>
    intro fuel m hi hfu hf
    cases fuel with
    | zero => omega
    | succ fuel =>
      have hil : i < as.length := by omega
      have hix : i < xs.length := by rw [h.len]; exact hil
      have : prev as (i + 1) = some as[i] := by simp [prev, hil]
      rw [this]
      unfold freeLoop
      have hnot : as[i] ∉ as.drop (i + 2) := by
        have hnd := h.nodup
        rw [← List.take_append_drop i as, List.drop_eq_getElem_cons hil] at hnd
        have hnd := (List.nodup_cons.mp (List.nodup_append.mp hnd).2.1).1
        intro hmem
        apply hnd
        exact (List.drop_sublist_drop_left as (by omega : i + 1 ≤ i + 2)).subset hmem
      have hm : m[as[i]]? = _ := (hf.2 as[i]).trans ((if_neg hnot).trans (h.cell i hil hix))
      rw [deref_eq hm, ok_bind]
      by_cases hi2 : i + 1 < as.length
      · rw [List.getElem?_eq_getElem hi2]
        obtain ⟨m', hm', hf'⟩ := free_step h hf hi2
        rw [hm', ok_bind]
        exact ih fuel m' (by omega) (by omega) hf'
      · have : as[i + 1]? = none := by simp; omega
        rw [this]
        simp only [free, ok_bind]
        refine ih fuel m (by omega) (by omega) ⟨hf.1, fun a => ?_⟩
        have e1 : as.drop (i + 2) = [] := by simp; omega
        have e2 : as.drop (i + 1) = [] := by simp; omega
        have := hf.2 a
        rw [e1] at this
        rw [e2]; exact this

theorem empty_rep {m : Mem α} {l : LList} {as : List Nat} {xs : List α} (h : Rep m l as xs) :
    ∃ m' l', empty m l = ok (m', l') ∧ Rep m' l' [] [] ∧ m'.length = m.length ∧
      (∀ a ∈ as, m'[a]? = some none) ∧ (∀ a, a ∉ as → m'[a]? = m[a]?) := by
  have h0 : FreedFrom m m as (as.length + 1) := ⟨rfl, fun a => by rw [List.drop_eq_nil_of_le (by omega)]; simp⟩
  obtain ⟨m1, h1, hf1⟩ := freeLoop_eq h as.length (m.length + 1) m (Nat.le_refl _)
    (by have := h.le_mem; omega) h0
  unfold empty
  rw [h.last, last_prev, h1, ok_bind]
  cases as with
  | nil =>
    rw [h.first]
    simp only [List.head?_nil, free, ok_bind]
    refine ⟨m1, _, rfl, ⟨by simp, rfl, rfl, rfl, rfl, by simp⟩, hf1.1, by simp, ?_⟩
    intro a _; have := hf1.2 a; simpa using this
  | cons z as' =>
    obtain ⟨m2, hm2, hf2⟩ := free_step h hf1 (i := 0) (by simp)
    rw [h.first]
    simp only [List.head?_cons]
    simp only [List.getElem_cons_zero] at hm2
    rw [hm2, ok_bind]
    refine ⟨m2, _, rfl, ⟨by simp, rfl, rfl, rfl, rfl, by simp⟩, hf2.1, ?_, ?_⟩
    · intro a ha; have := hf2.2 a; simp only [List.drop_zero, ha, if_true] at this; exact this
    · intro a ha; have := hf2.2 a; simp only [List.drop_zero, ha, if_false] at this; exact this

end Nip.LList
