import Mathlib.Data.List.Induction
import Verif.Spec.DataFile
import Verif.DataFile
import Verif.TokensRun

/-! # Fields of a line and groups of lines -/

namespace Nip

open Res Spec

/-- the groups of a list read from the left: finished groups and current group -/
def groupStep {α : Type} (p : α → Bool) (st : List (List α) × List α) (c : α) : List (List α) × List α :=
  if p c then (st.1 ++ (if st.2.isEmpty then [] else [st.2]), []) else (st.1, st.2 ++ [c])

/-- all groups -/
def closeGroups {α : Type} (st : List (List α) × List α) : List (List α) := st.1 ++ if st.2.isEmpty then [] else [st.2]

theorem splitOnP_snoc {α : Type} (p : α → Bool) (l : List α) (c : α) :
    ∃ pre last, l.splitOnP p = pre ++ [last] ∧
      (l ++ [c]).splitOnP p = if p c then pre ++ [last] ++ [[]] else pre ++ [last ++ [c]] := by
  induction l with
  | nil =>
    refine ⟨[], [], by simp, ?_⟩
    rw [List.nil_append, List.splitOnP_cons]
    split <;> simp
  | cons x l ih =>
    obtain ⟨pre, last, h1, h2⟩ := ih
    rw [List.cons_append, List.splitOnP_cons, List.splitOnP_cons, h1, h2]
    by_cases hx : p x = true
    · refine ⟨[] :: pre, last, by simp [hx], ?_⟩
      simp only [hx, if_true]
      split <;> simp
    · cases pre with
      | nil =>
        refine ⟨[], x :: last, by simp [hx], ?_⟩
        rw [if_neg hx]
        split <;> simp
      | cons q pre =>
        refine ⟨(x :: q) :: pre, last, by simp [hx], ?_⟩
        rw [if_neg hx]
        split <;> simp

theorem groups_fold {α : Type} (p : α → Bool) (l : List α) : groups p l = closeGroups (l.foldl (groupStep p) ([], [])) := by
  have key : ∃ pre, l.splitOnP p = pre ++ [(l.foldl (groupStep p) ([], [])).2] ∧
      pre.filter (fun g => !g.isEmpty) = (l.foldl (groupStep p) ([], [])).1 := by
    induction l using List.reverseRecOn with
    | nil => exact ⟨[], by simp, rfl⟩
    | append_singleton l c ih =>
      obtain ⟨pre, h1, h2⟩ := ih
      obtain ⟨pre', last, h3, h4⟩ := splitOnP_snoc p l c
      have h5 := List.append_inj' (h1.symm.trans h3) rfl
      obtain ⟨rfl, h5⟩ := h5
      rw [List.foldl_append, h4]
      simp only [List.foldl_cons, List.foldl_nil]
      generalize l.foldl (groupStep p) ([], []) = st at *
      have h5 : st.2 = last := by simpa using h5
      subst h5
      unfold groupStep
      by_cases hc : p c = true
      · refine ⟨pre ++ [st.2], by simp [hc], ?_⟩
        rw [if_pos hc, List.filter_append, h2]
        cases st.2 <;> simp
      · exact ⟨pre, by simp [hc], by rw [if_neg hc]; exact h2⟩
  obtain ⟨pre, h1, h2⟩ := key
  unfold groups closeGroups
  rw [h1, List.filter_append, h2]
  cases (l.foldl (groupStep p) ([], [])).2 <;> simp

theorem fields_run (sep : Char) (s : List Char) (k : Nat) (hk : k ≤ s.length) :
    (s.take k).foldl (groupStep (between sep)) ([], []) =
      ((pureRun (lineOpt sep) s k).done.map (tokText s),
        if (pureRun (lineOpt sep) s k).state = 0 then [] else tokText s ((pureRun (lineOpt sep) s k).start, k)) ∧
    (pureRun (lineOpt sep) s k).found = false ∧ (pureRun (lineOpt sep) s k).state ≤ 1 := by
  induction k with
  | zero => exact ⟨rfl, rfl, by simp [pureRun]⟩
  | succ k ih =>
    obtain ⟨ih, hf, h1⟩ := ih (by omega)
    have hk' : k < s.length := hk
    have hord := (pureRun_order (lineOpt sep) s k).2
    rw [List.take_succ_eq_append_getElem hk', List.foldl_append, ih, pureRun]
    simp only [List.foldl_cons, List.foldl_nil]
    have hg : s.getD k ' ' = s[k] := by rw [List.getD_eq_getElem?_getD, List.getElem?_eq_getElem hk']; rfl
    rw [hg]
    have htext : ∀ b, b ≤ k → tokText s (b, k + 1) = tokText s (b, k) ++ [s[k]] := by
      intro b hb
      unfold tokText
      rw [show k + 1 - b = (k - b) + 1 by omega, List.take_succ_eq_append_getElem (by rw [List.length_drop]; omega),
        List.getElem_drop]
      congr 3
      omega
    have hne : ∀ b, b < k → (tokText s (b, k)).isEmpty = false := by
      intro b hb
      unfold tokText
      rw [List.isEmpty_eq_false_iff, ← List.length_pos_iff]
      simp; omega
    have hsep : (lineOpt sep).isSep s[k] = (s[k] == sep) := by simp [TokOpt.isSep, lineOpt]
    have hst : (lineOpt sep).starts s[k] = !isSpace s[k] := by simp [TokOpt.starts, lineOpt]
    generalize s[k] = c at *
    have hs := pureRun_state (lineOpt sep) s k
    have hcases := pureStep_cases (lineOpt sep) s k c _ hs
    generalize pureRun (lineOpt sep) s k = p at *
    have h01 : p.state = 0 ∨ p.state = 1 := by omega
    rw [hf, Bool.false_or, hsep, hst] at hcases
    have hq : (lineOpt sep).quoted = false := rfl
    have ht : (lineOpt sep).sepTokens = false := rfl
    simp only [hq, ht] at hcases
    unfold groupStep between
    rw [whitespace_eq]
    rcases hcases with h | h | h | h | h | h | h | h | h | h
    · rw [h.2.2, h.2.1]
      rcases h01 with h0 | h0
      · simp [h0]
      · simp [h0, hne p.start (hord (by omega))]
    · exact absurd h.2.2.1 (by decide)
    · exact absurd h.2.2.1 (by decide)
    · rw [h.2.2.2.2, h.2.1]
      have : isSpace c = false := by simpa using h.2.2.2.1
      simp [this, h.1, htext k le_rfl]
      simp [tokText]
    · rw [h.2.2.2.2, h.2.1]
      have : isSpace c = true := by simpa using h.2.2.2.1
      simp [this, h.1]
    · rw [h.2.2.2.2, h.2.1]
      have : isSpace c = true := by simpa using h.2.2.2.1
      simp [this, h.1, hne p.start (hord (by omega))]
    · rw [h.2.2.2.2, h.2.1]
      have : isSpace c = false := by simpa using h.2.2.2.1
      simp [this, h.1, htext p.start (le_of_lt (hord (by omega)))]
    · omega
    · omega
    · omega

theorem fields_toks (sep : Char) (s : List Char) : fields sep s = (allToks (lineOpt sep) s).map (tokText s) := by
  have h := (fields_run sep s s.length le_rfl).1
  have hord := (pureRun_order (lineOpt sep) s s.length).2
  rw [List.take_length] at h
  rw [fields, groups_fold, h]
  unfold closeGroups allToks PS.toks
  simp only
  rw [List.map_append]
  congr 1
  by_cases h0 : (pureRun (lineOpt sep) s s.length).state = 0
  · simp [h0]
  · simp only [h0, if_false]
    have : (tokText s ((pureRun (lineOpt sep) s s.length).start, s.length)).isEmpty = false := by
      have := hord h0
      unfold tokText
      rw [List.isEmpty_eq_false_iff, ← List.length_pos_iff]
      simp; omega
    rw [this]; simp

theorem countTokens_fields (sep : Char) (s : List Char) : countTokens (lineOpt sep) s = ok (fields sep s).length := by
  rw [countTokens_eq, fields_toks, List.length_map]
  exact congrArg ok (PS.toks_length _ _).symm

/-- the tokens of a line are its fields -/
theorem tokenise_fields (sep : Char) (s : List Char) (h : 0 < (fields sep s).length) :
    ∃ a, tokenise (lineOpt sep) (some s) (fields sep s).length = ok (some a) ∧
      ∀ i (hi : i < (fields sep s).length), copyToken s a i = ok (fields sep s)[i] := by
  have hfl : (PS.flat (allToks (lineOpt sep) s)).length = 2 * (allToks (lineOpt sep) s).length := PS.flat_length _
  have hlen : (fields sep s).length = (allToks (lineOpt sep) s).length := by rw [fields_toks, List.length_map]
  refine ⟨PS.flat (allToks (lineOpt sep) s), ?_, ?_⟩
  · rw [hlen] at h ⊢
    rw [tokenise_eq _ s _ h, if_pos le_rfl, List.take_of_length_le hfl.le]
    intro k hk _
    exact hfl ▸ (out_prefix _ s (k := k + 1) hk).length_le
  · intro i hi
    rw [copyToken_eq s _ (allToks_order _ s) i (by omega)]
    congr 1
    simp only [fields_toks, List.getElem_map]

theorem blank_fields (sep : Char) (s : List Char) : blankLine sep s = true ↔ fields sep s = [] := by
  rw [fields, groups_fold]
  unfold blankLine closeGroups
  constructor
  · intro h
    have : ∀ l : List Char, l.all (between sep) = true → l.foldl (groupStep (between sep)) ([], []) = ([], []) := by
      intro l
      induction l with
      | nil => intro _; rfl
      | cons c l ih =>
        intro h
        rw [List.all_cons, Bool.and_eq_true] at h
        rw [List.foldl_cons, groupStep, if_pos h.1]
        exact ih h.2
    rw [this s h]; rfl
  · intro h
    have mono : ∀ (l : List Char) (st : List (List Char) × List Char), closeGroups st ≠ [] →
        closeGroups (l.foldl (groupStep (between sep)) st) ≠ [] := by
      intro l
      induction l with
      | nil => intro st h; exact h
      | cons c l ih =>
        intro st h
        rw [List.foldl_cons]
        apply ih
        unfold groupStep closeGroups at *
        split
        · simpa using h
        · simp
    rw [List.all_eq_true]
    intro c hc
    by_contra hb
    obtain ⟨l1, l2, rfl⟩ := List.append_of_mem hc
    rw [List.foldl_append, List.foldl_cons] at h
    refine mono l2 _ ?_ h
    unfold groupStep closeGroups
    rw [if_neg hb]
    simp

end Nip
