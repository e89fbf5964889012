import Verif.Words

/-! # Lemmas about data files -/

set_option linter.unusedSectionVars false

namespace Nip

open Res Spec

section

variable (header : Bool) (sep : Char)

/-- the header has not been read yet -/
def unseen (pre : List (List Char)) : Bool := header && pre.all (blankLine sep)

theorem dataLines_snoc (pre : List (List Char)) (l : List Char) :
    dataLines header sep (pre ++ [l]) = if unseen header sep pre then [] else dataLines header sep pre ++ [l] := by
  unfold dataLines unseen
  cases header with
  | false => simp
  | true =>
    simp only [if_true, Bool.true_and]
    induction pre with
    | nil =>
      simp only [List.nil_append, List.all_nil, if_true]
      by_cases h : blankLine sep l = true <;> simp [List.dropWhile, h]
    | cons x pre ih =>
      by_cases h : blankLine sep x = true
      · simp only [List.cons_append, List.dropWhile_cons, h, if_true, List.all_cons, Bool.true_and]
        exact ih
      · simp [List.dropWhile_cons, h]

theorem unseen_snoc (pre : List (List Char)) (l : List Char) :
    unseen header sep (pre ++ [l]) = (unseen header sep pre && blankLine sep l) := by
  unfold unseen
  rw [List.all_append]
  simp [Bool.and_assoc]

theorem unseen_data (pre : List (List Char)) (h : unseen header sep pre = true) : dataLines header sep pre = [] := by
  unfold unseen at h
  rw [Bool.and_eq_true] at h
  unfold dataLines
  rw [if_pos h.1]
  have : pre.dropWhile (blankLine sep) = [] := by
    have h2 := h.2
    clear h
    induction pre with
    | nil => rfl
    | cons x pre ih =>
      rw [List.all_cons, Bool.and_eq_true] at h2
      rw [List.dropWhile_cons, if_pos h2.1]
      exact ih h2.2
  rw [this]; rfl

/-- the groups of the data lines so far -/
def grp (pre : List (List Char)) : List (List (List Char)) × List (List Char) :=
  (dataLines header sep pre).foldl (groupStep (blankLine sep)) ([], [])

theorem series_grp (pre : List (List Char)) : series header sep pre = closeGroups (grp header sep pre) := groups_fold _ _

theorem grp_unseen (pre : List (List Char)) (h : unseen header sep pre = true) : grp header sep pre = ([], []) := by
  unfold grp; rw [unseen_data header sep pre h]; rfl

theorem grp_snoc (pre : List (List Char)) (l : List Char) :
    grp header sep (pre ++ [l]) = if unseen header sep pre then ([], []) else groupStep (blankLine sep) (grp header sep pre) l := by
  unfold grp
  rw [dataLines_snoc]
  split
  · rfl
  · rw [List.foldl_append]; rfl

theorem closeGroups_blank {α : Type} (st : List (List α) × List α) : closeGroups (closeGroups st, []) = closeGroups st := by
  simp [closeGroups]

theorem series_blank (pre : List (List Char)) (l : List Char) (h : blankLine sep l = true) :
    series header sep (pre ++ [l]) = series header sep pre := by
  rw [series_grp, series_grp, grp_snoc]
  by_cases hu : unseen header sep pre = true
  · rw [if_pos hu, grp_unseen header sep pre hu]
  · rw [if_neg hu, groupStep, if_pos h]
    exact closeGroups_blank _

theorem series_length_mono (pre post : List (List Char)) : (series header sep pre).length ≤ (series header sep (pre ++ post)).length := by
  induction post using List.reverseRecOn with
  | nil => simp
  | append_singleton post l ih =>
    refine ih.trans ?_
    rw [← List.append_assoc]
    generalize pre ++ post = q
    rw [series_grp, series_grp, grp_snoc]
    by_cases hu : unseen header sep q = true
    · rw [if_pos hu, grp_unseen header sep q hu]
    · rw [if_neg hu, groupStep]
      generalize grp header sep q = st
      unfold closeGroups
      by_cases hb : blankLine sep l = true
      · rw [if_pos hb]; simp
      · rw [if_neg hb]
        cases st.2 <;> simp

theorem countTokens_blank (l : List Char) : ∃ n, countTokens (lineOpt sep) l = ok n ∧ n = (fields sep l).length ∧ (n = 0 ↔ blankLine sep l = true) := by
  refine ⟨_, countTokens_fields sep l, rfl, ?_⟩
  rw [blank_fields, List.length_eq_zero_iff]

/-- the phase of reading -/
def phase (pre : List (List Char)) : Nat :=
  if unseen header sep pre then 2 else if (series header sep pre).isEmpty then 1 else 0

theorem phase_blank (pre : List (List Char)) (l : List Char) (h : blankLine sep l = true) :
    phase header sep (pre ++ [l]) = phase header sep pre := by
  unfold phase
  rw [series_blank header sep pre l h, unseen_snoc, h, Bool.and_true]

theorem phase_text (pre : List (List Char)) (l : List Char) (h : blankLine sep l = false) :
    phase header sep (pre ++ [l]) = phase header sep pre - 1 := by
  unfold phase
  rw [unseen_snoc, h, Bool.and_false, series_grp, grp_snoc]
  by_cases hu : unseen header sep pre = true
  · simp [hu, closeGroups]
  · simp only [hu, groupStep, h]
    simp [closeGroups]
    split <;> rfl

/-- the invariant of the first pass -/
structure RowInv (pre : List (List Char)) (t : RowCount) : Prop where
  current : t.current = pre.length
  label : t.label = if header && !pre.all (blankLine sep) then ((pre.takeWhile (blankLine sep)).length : Int) + 1 else -1
  line : t.line = (grp header sep pre).2.length
  rows : t.rows = (series header sep pre).length
  state : t.state = phase header sep pre

theorem takeWhile_snoc (pre : List (List Char)) (l : List Char) :
    (pre ++ [l]).takeWhile (blankLine sep) =
      if pre.all (blankLine sep) then (if blankLine sep l then pre ++ [l] else pre) else pre.takeWhile (blankLine sep) := by
  induction pre with
  | nil => simp [List.takeWhile_cons]
  | cons x pre ih =>
    by_cases hx : blankLine sep x = true
    · simp only [List.cons_append, List.takeWhile_cons, hx, if_true, List.all_cons, Bool.true_and]
      rw [ih]
      by_cases h1 : pre.all (blankLine sep) = true <;> by_cases h2 : blankLine sep l = true <;> simp [h1, h2]
    · simp [hx]

theorem countRowsStep_header (l : List Char) (t : RowCount) (n : Nat) (h1 : countTokens (lineOpt sep) l = ok n) (hn : n ≠ 0) (hs : t.state = 2) :
    countRowsStep sep l t = ok ⟨t.current + 1, (t.current + 1 : Nat), 0, 0, t.rows, 1⟩ := by
  obtain ⟨a, b, c, d, e, f⟩ := t
  simp only at hs
  subst hs
  unfold countRowsStep
  rw [h1, ok_bind, if_neg hn]
  rfl

theorem countRowsStep_data (l : List Char) (t : RowCount) (n : Nat) (h1 : countTokens (lineOpt sep) l = ok n) (hn : n ≠ 0) (hs : t.state ≤ 1) :
    countRowsStep sep l t = ok ⟨t.current + 1, t.label, t.line + 1, 0, if t.line + 1 = 1 then t.rows + 1 else t.rows, 0⟩ := by
  obtain ⟨a, b, c, d, e, f⟩ := t
  simp only at hs
  unfold countRowsStep
  rw [h1, ok_bind, if_neg hn]
  have : f = 0 ∨ f = 1 := by omega
  rcases this with rfl | rfl <;> by_cases hc : c + 1 = 1 <;> simp_all

theorem countRowsStep_inv (pre : List (List Char)) (l : List Char) (t : RowCount) (h : RowInv header sep pre t) :
    ∃ t', countRowsStep sep l t = ok t' ∧ RowInv header sep (pre ++ [l]) t' := by
  obtain ⟨n, h1, _, h2⟩ := countTokens_blank sep l
  obtain ⟨hc, hl, hli, hr, hs⟩ := h
  by_cases hb : blankLine sep l = true
  · unfold countRowsStep
    rw [h1, ok_bind, if_pos (h2.2 hb)]
    refine ⟨_, rfl, ⟨by simp [hc], ?_, ?_, ?_, ?_⟩⟩
    · simp only
      rw [hl, List.all_append, takeWhile_snoc]
      by_cases ha : pre.all (blankLine sep) = true
      · simp [ha, hb]
      · simp [ha]
    · simp only
      rw [grp_snoc]
      split
      · rfl
      · rw [groupStep, if_pos hb]; rfl
    · simp only; rw [series_blank header sep pre l hb]; exact hr
    · simp only; rw [phase_blank header sep pre l hb]; exact hs
  · have hb' : blankLine sep l = false := by simpa using hb
    have hph := phase_text header sep pre l hb'
    have hgs := grp_snoc header sep pre l
    have hss := series_grp header sep (pre ++ [l])
    have hsp := series_grp header sep pre
    have hlab : ((pre ++ [l]).all (blankLine sep)) = false := by simp [hb']
    have htw := takeWhile_snoc sep pre l
    unfold groupStep at hgs
    simp only [hb', Bool.false_eq_true, if_false] at hgs htw
    by_cases hu : unseen header sep pre = true
    · have hp2 : t.state = 2 := by rw [hs, phase, if_pos hu]
      have hu' : header = true ∧ pre.all (blankLine sep) = true := by
        unfold unseen at hu; rwa [Bool.and_eq_true] at hu
      rw [if_pos hu'.2] at htw
      rw [if_pos hu] at hgs
      rw [grp_unseen header sep pre hu] at hsp hli
      simp [closeGroups] at hsp hli
      rw [hgs] at hss
      simp [closeGroups] at hss
      refine ⟨_, countRowsStep_header sep l t n h1 (fun h => hb (h2.1 h)) hp2, ?_⟩
      refine ⟨by simp [hc], ?_, ?_, ?_, ?_⟩
      · simp only [hlab, hu'.1, htw, hc]; simp
      · simp [hgs]
      · simp [hss, hr, hsp]
      · rw [hph, ← hs, hp2]
    · rw [if_neg hu] at hgs
      have hu0 : (header && !pre.all (blankLine sep)) = header := by
        unfold unseen at hu
        cases header <;> simp at hu ⊢
        exact hu
      have hlabel : t.label = if header && !(pre ++ [l]).all (blankLine sep) then
          (((pre ++ [l]).takeWhile (blankLine sep)).length : Int) + 1 else -1 := by
        rw [hl, hu0, hlab, htw]
        unfold unseen at hu
        cases header
        · simp
        · simp only [Bool.true_and] at hu
          rw [if_neg hu]; simp
      have hp : t.state ≤ 1 := by
        rw [hs, phase, if_neg hu]; split <;> simp
      have hrows : (series header sep (pre ++ [l])).length = if t.line + 1 = 1 then t.rows + 1 else t.rows := by
        rw [hss, hr, hli, hgs, hsp]
        unfold closeGroups
        cases (grp header sep pre).2 <;> simp
      have hline : (grp header sep (pre ++ [l])).2.length = t.line + 1 := by rw [hgs, hli]; simp
      refine ⟨_, countRowsStep_data sep l t n h1 (fun h => hb (h2.1 h)) hp, ?_⟩
      exact ⟨by simp [hc], hlabel, hline.symm, hrows.symm, by simp only; rw [hph, ← hs]; omega⟩

theorem countDataRows_eq (lines : List (List Char)) :
    countDataRows sep header lines = ok ((series header sep lines).length,
      if header && !lines.all (blankLine sep) then ((lines.takeWhile (blankLine sep)).length : Int) + 1 else -1) := by
  unfold countDataRows
  obtain ⟨t, h1, h2⟩ := loop_inv (n := lines.length) (f := fun k t => do
    let line ← rd lines k
    countRowsStep sep line t)
    (s := ({ current := 0, label := -1, line := 0, empty := 0, rows := 0, state := if header then 2 else 1 } : RowCount))
    (fun k t => RowInv header sep (lines.take k) t)
    (by
      rw [List.take_zero]
      cases header <;> exact ⟨rfl, rfl, rfl, rfl, rfl⟩) (by
      intro i hi t ht
      obtain ⟨t', h1, h2⟩ := countRowsStep_inv header sep _ lines[i] t ht
      exact ⟨t', by rw [rd_lt hi]; exact h1, by rw [List.take_succ_eq_append_getElem hi]; exact h2⟩)
  rw [List.take_length] at h2
  rw [h1, ok_bind, h2.rows, h2.label]

/-- the fields of the header -/
def hdr (pre : List (List Char)) : List (List Char) :=
  if header then ((pre.dropWhile (blankLine sep)).head?.map (fields sep)).getD [] else []

theorem hdr_snoc (pre : List (List Char)) (l : List Char) :
    hdr header sep (pre ++ [l]) = if unseen header sep pre then fields sep l else hdr header sep pre := by
  unfold hdr unseen
  cases header with
  | false => simp
  | true =>
    simp only [if_true, Bool.true_and]
    induction pre with
    | nil =>
      by_cases h : blankLine sep l = true
      · simp [List.dropWhile, h, (blank_fields sep l).1 h]
      · simp [List.dropWhile, h]
    | cons x pre ih =>
      by_cases h : blankLine sep x = true
      · simp only [List.cons_append, List.dropWhile_cons, h, if_true, List.all_cons, Bool.true_and]
        exact ih
      · simp [List.dropWhile_cons, h]

theorem hdr_unseen (pre : List (List Char)) (h : unseen header sep pre = true) : hdr header sep pre = [] := by
  induction pre using List.reverseRecOn with
  | nil => unfold hdr; simp
  | append_singleton pre l ih =>
    rw [unseen_snoc, Bool.and_eq_true] at h
    rw [hdr_snoc, if_pos h.1]
    exact (blank_fields sep l).1 h.2

/-- collect a value -/
def addName (l : List (List Char)) (v : List Char) : List (List Char) :=
  if missing v || l.any (fun w => v == w) then l else v :: l

/-- collect the value of a column of a line -/
def addField (j : Nat) (l : List (List Char)) (line : List Char) : List (List Char) :=
  match (fields sep line)[j]? with
  | some v => addName l v
  | none => l

/-- the names of a column -/
def colNames (pre : List (List Char)) (j : Nat) : List (List Char) := (dataLines header sep pre).foldl (addField sep j) []

theorem set_range_map {β : Type} (m i : Nat) (g : Nat → β) (v : β) :
    ((List.range m).map g).set i v = (List.range m).map (fun j => if j = i then v else g j) := by
  apply List.ext_getElem
  · simp
  · intro j h1 h2
    rw [List.getElem_set]
    simp only [List.getElem_map, List.getElem_range]
    by_cases h : i = j
    · rw [if_pos h, if_pos h.symm]
    · rw [if_neg h, if_neg (fun e => h e.symm)]

theorem accumulate_eq (m : Nat) (f : Nat → List (List Char)) (line : List Char) (a : List Nat) (i : Nat) (hm : i ≤ m)
    (hi : i ≤ (fields sep line).length) (ha : ∀ i (hi : i < (fields sep line).length), copyToken line a i = ok (fields sep line)[i]) :
    accumulateStateNames ((List.range m).map f) line a i =
      ok ((List.range m).map (fun j => if j < i then addField sep j (f j) line else f j)) := by
  unfold accumulateStateNames
  obtain ⟨t, h1, h2⟩ := loop_inv (n := i) (f := fun i (names : List (List (List Char))) => do
    let token ← copyToken line a i
    if nullObservation token then ok names
    else do
      let l ← rd names i
      if l.any (fun w => token == w) then ok names else wr names i (token :: l)) (s := (List.range m).map f)
    (fun k t => t = (List.range m).map (fun j => if j < k then addField sep j (f j) line else f j)) (by simp) (by
      intro k hk t ht
      refine ⟨(List.range m).map (fun j => if j < k + 1 then addField sep j (f j) line else f j), ?_, rfl⟩
      have hkf : k < (fields sep line).length := by omega
      rw [ha k hkf, ok_bind, ht]
      have hf : addField sep k (f k) line = addName (f k) (fields sep line)[k] := by
        unfold addField; rw [List.getElem?_eq_getElem hkf]
      have hsame : addField sep k (f k) line = f k →
          (List.range m).map (fun j => if j < k then addField sep j (f j) line else f j) =
          (List.range m).map (fun j => if j < k + 1 then addField sep j (f j) line else f j) := by
        intro he
        apply List.map_congr_left
        intro j _
        by_cases hj : j < k
        · rw [if_pos hj, if_pos (by omega)]
        · by_cases hjk : j = k
          · subst hjk; rw [if_neg hj, if_pos (by omega), he]
          · rw [if_neg hj, if_neg (by omega)]
      generalize (fields sep line)[k] = v at *
      have hnull : nullObservation v = missing v := rfl
      rw [hnull]
      by_cases hmiss : missing v = true
      · rw [if_pos hmiss, hsame]
        rw [hf, addName, hmiss]; rfl
      · rw [if_neg hmiss, rd_lt (by simp; omega), ok_bind]
        simp only [List.getElem_map, List.getElem_range, lt_irrefl, if_false]
        by_cases hany : (f k).any (fun w => v == w) = true
        · rw [if_pos hany, hsame]
          rw [hf, addName, hany]; simp
        · rw [if_neg hany, wr_lt (by simp; omega), set_range_map]
          congr 1
          apply List.map_congr_left
          intro j _
          by_cases hjk : j = k
          · subst hjk
            rw [if_pos rfl, if_pos (by omega), hf, addName]
            simp [hmiss, hany]
          · rw [if_neg hjk]
            by_cases hj : j < k
            · rw [if_pos hj, if_pos (by omega)]
            · rw [if_neg hj, if_neg (by omega)])
  rw [h1, h2]

theorem setNodeSymbols_eq (line : List Char) (a : List Nat)
    (ha : ∀ i (hi : i < (fields sep line).length), copyToken line a i = ok (fields sep line)[i]) :
    setNodeSymbols true line a (fields sep line).length = ok (fields sep line) := by
  unfold setNodeSymbols
  rw [if_pos rfl]
  obtain ⟨t, h1, h2⟩ := loop_inv (n := (fields sep line).length) (f := fun i (names : List (List Char)) => do
      let w ← copyToken line a i
      ok (names ++ [w])) (s := []) (fun k t => t = (fields sep line).take k) (by simp) (by
      intro k hk t ht
      refine ⟨(fields sep line).take (k + 1), ?_, rfl⟩
      rw [ha k hk, ok_bind, ht, List.take_succ_eq_append_getElem hk])
  rw [h1, h2, List.take_length]

/-- the invariant of the second pass; `total` is the number of time series of the file -/
structure AnaInv (total : Nat) (pre : List (List Char)) (t : Analysis) : Prop where
  state : t.state = phase header sep pre
  ts : t.ts = (series header sep pre).length - 1
  empty : phase header sep pre = 0 → (t.empty > 0 ↔ (grp header sep pre).2 = [])
  datarows : t.datarows = (series header sep pre).map List.length ++ List.replicate (total - (series header sep pre).length) 0
  symbols : t.symbols = hdr header sep pre
  names : t.names = if header && !unseen header sep pre then some ((List.range (hdr header sep pre).length).map (colNames header sep pre)) else none

theorem analyseStep_blank (l : List Char) (t : Analysis) (h : blankLine sep l = true) :
    analyseStep sep header l t = ok (some { t with empty := t.empty + 1 }) := by
  obtain ⟨n, h1, _, h2⟩ := countTokens_blank sep l
  unfold analyseStep
  rw [h1, ok_bind, if_pos (h2.2 h)]

theorem colNames_snoc (pre : List (List Char)) (l : List Char) (j : Nat) (h : unseen header sep pre = false) :
    colNames header sep (pre ++ [l]) j = addField sep j (colNames header sep pre j) l := by
  unfold colNames
  rw [dataLines_snoc, h, if_neg (by simp), List.foldl_append]
  rfl

theorem colNames_unseen (pre : List (List Char)) (l : List Char) (j : Nat) (h : unseen header sep pre = true) :
    colNames header sep (pre ++ [l]) j = [] := by
  unfold colNames
  rw [dataLines_snoc, h, if_pos rfl]
  rfl

theorem addField_blank (l : List Char) (j : Nat) (ns : List (List Char)) (h : blankLine sep l = true) : addField sep j ns l = ns := by
  unfold addField
  rw [(blank_fields sep l).1 h]
  rfl

theorem analyseStep_inv (total : Nat) (pre : List (List Char)) (l : List Char) (t : Analysis) (h : AnaInv header sep total pre t)
    (htot : (series header sep (pre ++ [l])).length ≤ total) :
    ∃ t', analyseStep sep header l t = ok (some t') ∧ AnaInv header sep total (pre ++ [l]) t' := by
  obtain ⟨hst, hts, hem, hdr', hsy, hna⟩ := h
  by_cases hb : blankLine sep l = true
  · refine ⟨_, analyseStep_blank header sep l t hb, ?_⟩
    refine ⟨?_, ?_, ?_, ?_, ?_, ?_⟩
    · simp only; rw [phase_blank header sep pre l hb]; exact hst
    · simp only; rw [series_blank header sep pre l hb]; exact hts
    · simp only
      intro hp
      rw [grp_snoc]
      have : unseen header sep pre = false := by
        rw [phase_blank header sep pre l hb] at hp
        by_contra hu
        unfold phase at hp
        rw [if_pos (by simpa using hu)] at hp
        omega
      rw [this, if_neg (by simp), groupStep, if_pos hb]
      simp
    · simp only; rw [series_blank header sep pre l hb]; exact hdr'
    · simp only
      rw [hdr_snoc]
      split
      · rename_i hu
        rw [hsy, hdr_unseen header sep pre hu, (blank_fields sep l).1 hb]
      · exact hsy
    · simp only
      rw [hna, unseen_snoc, hb, Bool.and_true]
      by_cases hu : unseen header sep pre = true
      · simp [hu]
      · have hu' : unseen header sep pre = false := by simpa using hu
        rw [hdr_snoc, if_neg hu]
        split
        · congr 1
          apply List.map_congr_left
          intro j _
          rw [colNames_snoc header sep pre l j hu', addField_blank sep l j _ hb]
        · rfl
  · have hb' : blankLine sep l = false := by simpa using hb
    have hn : 0 < (fields sep l).length := by
      rw [List.length_pos_iff]
      intro h0
      exact hb ((blank_fields sep l).2 h0)
    obtain ⟨a, ha1, ha2⟩ := tokenise_fields sep l hn
    have hph := phase_text header sep pre l hb'
    unfold analyseStep
    rw [countTokens_fields, ok_bind, if_neg (by omega), ha1, ok_bind]
    simp only
    by_cases hu : unseen header sep pre = true
    · -- the header
      have hp2 : phase header sep pre = 2 := by rw [phase, if_pos hu]
      have hh : header = true := by unfold unseen at hu; rw [Bool.and_eq_true] at hu; exact hu.1
      have hgr := grp_unseen header sep pre hu
      have hse : series header sep pre = [] := by rw [series_grp, hgr]; rfl
      have hgs : grp header sep (pre ++ [l]) = ([], []) := by rw [grp_snoc, if_pos hu]
      have hss : series header sep (pre ++ [l]) = [] := by rw [series_grp, hgs]; rfl
      rw [hst, hp2, if_pos (by omega)]
      rw [show setNodeSymbols header l a (fields sep l).length = ok (fields sep l) by rw [hh]; exact setNodeSymbols_eq sep l a ha2, ok_bind]
      refine ⟨_, rfl, ?_⟩
      refine ⟨by simp only; rw [hph, hp2], ?_, ?_, ?_, ?_, ?_⟩
      · simp only [hss, hts, hse]; simp
      · rw [hph, hp2]; intro h; omega
      · simp only [hss, hdr', hse]
      · simp only; rw [hdr_snoc, if_pos hu]
      · simp only
        rw [unseen_snoc, hb', Bool.and_false, hh]
        simp only [Bool.not_false, Bool.and_true, if_true]
        rw [show hdr true sep (pre ++ [l]) = fields sep l by rw [← hh, hdr_snoc, if_pos hu]]
        congr 1
        apply List.ext_getElem
        · simp
        · intro j h1 h2
          simp only [List.getElem_replicate, List.getElem_map, List.getElem_range]
          rw [← hh, colNames_unseen header sep pre l j hu]
    · -- data
      have hu' : unseen header sep pre = false := by simpa using hu
      have hgs : grp header sep (pre ++ [l]) = ((grp header sep pre).1, (grp header sep pre).2 ++ [l]) := by
        rw [grp_snoc, if_neg hu, groupStep, if_neg hb]
      have hp1 : phase header sep pre ≤ 1 := by rw [phase, if_neg hu]; split <;> simp
      have hp0 : phase header sep (pre ++ [l]) = 0 := by rw [hph]; omega
      rw [if_neg (by rw [hst]; omega)]
      have hse := series_grp header sep pre
      have hss : series header sep (pre ++ [l]) = (grp header sep pre).1 ++ [(grp header sep pre).2 ++ [l]] := by
        rw [series_grp, hgs]; simp [closeGroups]
      -- the index of the series
      have hidx : (if t.empty > 0 ∧ t.state < 1 then t.ts + 1 else t.ts) = (grp header sep pre).1.length := by
        by_cases hcur : (grp header sep pre).2 = []
        · have hse' : series header sep pre = (grp header sep pre).1 := by rw [hse, closeGroups, hcur]; simp
          by_cases hp : phase header sep pre = 0
          · have hne : (series header sep pre).length ≠ 0 := by
              intro h0
              unfold phase at hp
              rw [if_neg hu, if_pos (by rw [List.isEmpty_iff_length_eq_zero]; exact h0)] at hp
              omega
            rw [if_pos ⟨(hem hp).2 hcur, by omega⟩, hts, ← hse']; omega
          · rw [if_neg (by omega), hts, ← hse']
            have : (series header sep pre).isEmpty = true := by
              by_contra hx
              unfold phase at hp
              rw [if_neg hu, if_neg hx] at hp
              omega
            rw [List.isEmpty_iff_length_eq_zero] at this
            omega
        · have hse' : series header sep pre = (grp header sep pre).1 ++ [(grp header sep pre).2] := by
            rw [hse, closeGroups]; simp [hcur]
          have hp : phase header sep pre = 0 := by
            unfold phase
            rw [if_neg hu, hse', if_neg (by simp)]
          rw [if_neg (fun hx => hcur ((hem hp).1 hx.1)), hts, hse']
          simp
      have hrows : ∃ r, rd t.datarows (grp header sep pre).1.length = ok r ∧ wr t.datarows (grp header sep pre).1.length (r + 1) =
          ok ((series header sep (pre ++ [l])).map List.length ++ List.replicate (total - (series header sep (pre ++ [l])).length) 0) := by
        have hlen : (series header sep (pre ++ [l])).length = (grp header sep pre).1.length + 1 := by rw [hss]; simp
        rw [hlen] at htot ⊢
        by_cases hcur : (grp header sep pre).2 = []
        · have hse' : series header sep pre = (grp header sep pre).1 := by rw [hse, closeGroups, hcur]; simp
          obtain ⟨z, hz⟩ : ∃ z, total - (grp header sep pre).1.length = z + 1 := ⟨total - (grp header sep pre).1.length - 1, by omega⟩
          have hd : t.datarows = (grp header sep pre).1.map List.length ++ 0 :: List.replicate z 0 := by
            rw [hdr', hse', hz, List.replicate_succ]
          refine ⟨0, ?_, ?_⟩
          · rw [rd_lt (by rw [hd]; simp)]
            simp only [hd]
            simp
          · rw [wr_lt (by rw [hd]; simp), hd, hss, hcur, show total - ((grp header sep pre).1.length + 1) = z by omega]
            simp
        · have hse' : series header sep pre = (grp header sep pre).1 ++ [(grp header sep pre).2] := by
            rw [hse, closeGroups]; simp [hcur]
          have hd : t.datarows = (grp header sep pre).1.map List.length ++
              (grp header sep pre).2.length :: List.replicate (total - ((grp header sep pre).1.length + 1)) 0 := by
            rw [hdr', hse']; simp
          refine ⟨(grp header sep pre).2.length, ?_, ?_⟩
          · rw [rd_lt (by rw [hd]; simp)]
            simp only [hd]
            simp
          · rw [wr_lt (by rw [hd]; simp), hd, hss]
            simp
      obtain ⟨r, hr1, hr2⟩ := hrows
      rw [hidx, hr1, ok_bind, hr2, ok_bind]
      have hnames : t.names = if header then some ((List.range (hdr header sep pre).length).map (colNames header sep pre)) else none := by
        rw [hna, hu']; simp
      have hhd : hdr header sep (pre ++ [l]) = hdr header sep pre := by rw [hdr_snoc, if_neg hu]
      have hinv : ∀ nm, nm = (if header then some ((List.range (hdr header sep pre).length).map (colNames header sep (pre ++ [l]))) else none) →
          AnaInv header sep total (pre ++ [l])
            { state := t.state - 1, ts := (grp header sep pre).1.length, empty := 0,
              datarows := (series header sep (pre ++ [l])).map List.length ++ List.replicate (total - (series header sep (pre ++ [l])).length) 0,
              symbols := t.symbols, names := nm } := by
        intro nm hnm
        refine ⟨by simp only; rw [hph, hst], ?_, ?_, rfl, by rw [hhd]; exact hsy, ?_⟩
        · simp only; rw [hss]; simp
        · intro _; rw [hgs]; simp
        · simp only; rw [hnm, hhd, unseen_snoc, hu']; simp
      obtain ⟨i, hi⟩ : ∃ i, i = if t.symbols.length < (fields sep l).length then t.symbols.length else (fields sep l).length := ⟨_, rfl⟩
      have hi1 : i ≤ (hdr header sep pre).length := by rw [hi, ← hsy]; split <;> omega
      have hi2 : i ≤ (fields sep l).length := by rw [hi]; split <;> omega
      have hi3 : ∀ j < (hdr header sep pre).length, ¬ j < i → (fields sep l).length ≤ j := by
        intro j hj hji
        rw [hi, ← hsy] at *
        split at hji <;> omega
      simp only [← hi]
      by_cases hpos : i > 0
      · rw [if_pos hpos]
        have hh : header = true := by
          by_contra hh
          have : hdr header sep pre = [] := by unfold hdr; rw [if_neg hh]
          rw [this] at hi1
          simp at hi1
          omega
        rw [hnames, if_pos hh]
        simp only
        rw [accumulate_eq sep _ _ l a i hi1 hi2 ha2, ok_bind]
        refine ⟨_, rfl, hinv _ ?_⟩
        rw [if_pos hh]
        congr 1
        apply List.map_congr_left
        intro j hj
        rw [List.mem_range] at hj
        rw [colNames_snoc header sep pre l j hu']
        split
        · rfl
        · rename_i hji
          unfold addField
          rw [List.getElem?_eq_none (hi3 j hj hji)]
      · rw [if_neg hpos]
        refine ⟨_, rfl, hinv _ ?_⟩
        rw [hnames]
        have h0 : (hdr header sep pre).length = 0 := by
          by_contra h0
          have := hi3 0 (by omega) (by omega)
          omega
        rw [h0]
        rfl

theorem analyse_eq (file : List Char) :
    analyseDataFile sep header file = ok (some {
      ndatarows := (series header sep (fileLines file)).length
      datarows := (series header sep (fileLines file)).map List.length
      label := if header && !(fileLines file).all (blankLine sep) then (((fileLines file).takeWhile (blankLine sep)).length : Int) + 1 else -1
      symbols := hdr header sep (fileLines file)
      states := (List.range (hdr header sep (fileLines file)).length).map (colNames header sep (fileLines file))
      returned := (series header sep (fileLines file)).length - 1 }) := by
  unfold analyseDataFile
  simp only
  generalize fileLines file = lines
  rw [countDataRows_eq, ok_bind]
  simp only
  obtain ⟨t, h1, h2⟩ := loop_inv (n := lines.length) (f := fun k (t : Option Analysis) =>
    match t with
    | none => ok none
    | some t => do
      let line ← rd lines k
      analyseStep sep header line t)
    (s := some ({ state := if header then 2 else 1, ts := 0, empty := 0, datarows := List.replicate (series header sep lines).length 0,
                  symbols := [], names := none } : Analysis))
    (fun k t => ∃ t', t = some t' ∧ AnaInv header sep (series header sep lines).length (lines.take k) t')
    (by
      refine ⟨_, rfl, ?_⟩
      rw [List.take_zero]
      have hs : series header sep [] = [] := by cases header <;> rfl
      refine ⟨by cases header <;> rfl, by rw [hs]; rfl, ?_, by rw [hs]; simp, by cases header <;> rfl, by cases header <;> rfl⟩
      intro h
      cases header <;> cases h) (by
      rintro i hi t ⟨t', rfl, ht⟩
      have htot := series_length_mono header sep (lines.take (i + 1)) (lines.drop (i + 1))
      rw [List.take_append_drop, List.take_succ_eq_append_getElem hi] at htot
      obtain ⟨t'', h1, h2⟩ := analyseStep_inv header sep _ _ lines[i] t' ht htot
      exact ⟨some t'', by simp only; rw [rd_lt hi]; exact h1, t'', rfl, by rw [List.take_succ_eq_append_getElem hi]; exact h2⟩)
  obtain ⟨t', rfl, h2⟩ := h2
  rw [List.take_length] at h2
  refine Eq.trans (congrArg (fun r => Res.bind r _) h1) ?_
  have hstates : loop t'.symbols.length (fun i (states : List (List (List Char))) =>
      match t'.names with
      | none => ub
      | some names => do
        let l ← rd names i
        ok (states ++ [l])) [] = ok ((List.range (hdr header sep lines).length).map (colNames header sep lines)) := by
    rw [h2.symbols, h2.names]
    obtain ⟨s, g1, g2⟩ := loop_inv (n := (hdr header sep lines).length) (f := fun i (states : List (List (List Char))) =>
      match (if header && !unseen header sep lines then some ((List.range (hdr header sep lines).length).map (colNames header sep lines)) else none) with
      | none => ub
      | some names => do
        let l ← rd names i
        ok (states ++ [l])) (s := []) (fun k s => s = (List.range k).map (colNames header sep lines)) rfl (by
        intro i hi s hs
        have hc : (header && !unseen header sep lines) = true := by
          by_contra hc
          have : hdr header sep lines = [] := by
            by_cases hu : unseen header sep lines = true
            · exact hdr_unseen header sep lines hu
            · unfold hdr
              rw [if_neg]
              intro hh
              exact hc (by rw [Bool.and_eq_true]; exact ⟨hh, by simpa using hu⟩)
          rw [this] at hi
          simp at hi
        refine ⟨(List.range (i + 1)).map (colNames header sep lines), ?_, rfl⟩
        rw [hc]
        simp only [if_true]
        rw [rd_lt (by simpa using hi), ok_bind, hs, List.range_succ]
        simp)
    exact g1.trans (congrArg ok g2)
  show Res.bind (ok (some t')) _ = _
  rw [Res.bind]
  simp only
  refine Eq.trans (congrArg (fun r => Res.bind r _) hstates) ?_
  rw [Res.bind, h2.datarows, h2.symbols, h2.ts]
  simp only [Nat.sub_self, List.replicate_zero, List.append_nil]

theorem addName_mem (l : List (List Char)) (v w : List Char) (h : ∀ x ∈ l, missing x = false) :
    (w ∈ addName l v ↔ w ∈ l ∨ (w = v ∧ missing v = false)) ∧ (l.Nodup → (addName l v).Nodup) ∧ ∀ x ∈ addName l v, missing x = false := by
  unfold addName
  split
  · rename_i hc
    refine ⟨⟨Or.inl, ?_⟩, id, h⟩
    rintro (hw | ⟨rfl, hm⟩)
    · exact hw
    · rw [hm, Bool.false_or, List.any_eq_true] at hc
      obtain ⟨x, hx, hxv⟩ := hc
      rw [beq_iff_eq] at hxv
      rw [hxv]; exact hx
  · rename_i hc
    rw [Bool.or_eq_true, not_or] at hc
    have hm : missing v = false := by simpa using hc.1
    have hnot : v ∉ l := by
      intro hv
      exact hc.2 (List.any_eq_true.2 ⟨v, hv, by simp⟩)
    refine ⟨?_, fun hl => List.nodup_cons.2 ⟨hnot, hl⟩, ?_⟩
    · rw [List.mem_cons]
      constructor
      · rintro (rfl | h)
        · exact Or.inr ⟨rfl, hm⟩
        · exact Or.inl h
      · rintro (h | ⟨rfl, _⟩)
        · exact Or.inr h
        · exact Or.inl rfl
    · intro x hx
      rcases List.mem_cons.1 hx with rfl | hx
      · exact hm
      · exact h x hx

theorem colNames_spec (lines : List (List Char)) (j : Nat) :
    (colNames header sep lines j).Nodup ∧
      ∀ v, v ∈ colNames header sep lines j ↔ missing v = false ∧ Occurs header sep lines j v := by
  have key : ∀ data : List (List Char), (data.foldl (addField sep j) []).Nodup ∧ (∀ x ∈ data.foldl (addField sep j) [], missing x = false) ∧
      ∀ v, v ∈ data.foldl (addField sep j) [] ↔ missing v = false ∧ ∃ line ∈ data, (fields sep line)[j]? = some v := by
    intro data
    induction data using List.reverseRecOn with
    | nil => simp
    | append_singleton data l ih =>
      obtain ⟨h1, h2, h3⟩ := ih
      rw [List.foldl_append]
      simp only [List.foldl_cons, List.foldl_nil]
      generalize data.foldl (addField sep j) [] = ns at *
      unfold addField
      cases hf : (fields sep l)[j]? with
      | none =>
        refine ⟨h1, h2, fun v => ?_⟩
        rw [h3]
        simp [hf]
      | some x =>
        simp only
        refine ⟨(addName_mem ns x x h2).2.1 h1, (addName_mem ns x x h2).2.2, fun v => ?_⟩
        rw [(addName_mem ns x v h2).1, h3]
        constructor
        · rintro (⟨hm, line, hl, hv⟩ | ⟨rfl, hm⟩)
          · exact ⟨hm, line, List.mem_append_left _ hl, hv⟩
          · exact ⟨hm, l, by simp, hf⟩
        · rintro ⟨hm, line, hl, hv⟩
          rcases List.mem_append.1 hl with hl | hl
          · exact Or.inl ⟨hm, line, hl, hv⟩
          · rw [List.mem_singleton.1 hl, hf] at hv
            injection hv with hv
            subst hv
            exact Or.inr ⟨rfl, hm⟩
  exact ⟨(key _).1, (key _).2.2⟩

end

theorem fgets_append (n : Nat) (s : List Char) : (fgets n s).1 ++ (fgets n s).2 = s := by
  induction n generalizing s with
  | zero => rfl
  | succ n ih =>
    cases s with
    | nil => rfl
    | cons c s =>
      rw [fgets]
      split
      · rfl
      · simp [ih s]

theorem fgets_nonempty (n : Nat) (s : List Char) (hn : 0 < n) (hs : s ≠ []) : (fgets n s).1 ≠ [] := by
  cases n with
  | zero => omega
  | succ n =>
    cases s with
    | nil => exact absurd rfl hs
    | cons c s => rw [fgets]; split <;> simp

theorem fgets_le (n : Nat) (s : List Char) : (fgets n s).1.length ≤ n := by
  induction n generalizing s with
  | zero => simp [fgets]
  | succ n ih =>
    cases s with
    | nil => simp [fgets]
    | cons c s =>
      rw [fgets]
      split
      · simp
      · have := ih s; simp; omega

theorem fgets_short (n : Nat) (l r : List Char) (hl : '\n' ∉ l) (hn : l.length < n) : fgets n (l ++ '\n' :: r) = (l ++ ['\n'], r) := by
  induction l generalizing n with
  | nil =>
    obtain ⟨m, rfl⟩ : ∃ m, n = m + 1 := ⟨n - 1, by simp at hn; omega⟩
    rfl
  | cons c l ih =>
    obtain ⟨m, rfl⟩ : ∃ m, n = m + 1 := ⟨n - 1, by simp at hn; omega⟩
    rw [List.mem_cons, not_or] at hl
    rw [List.cons_append, fgets, if_neg (by simpa using fun h => hl.1 h.symm), ih m hl.2 (by simpa using hn)]
    rfl

theorem readLines_flatten (fuel : Nat) (s : List Char) (h : s.length ≤ fuel) : (readLines fuel s).flatten = s := by
  induction fuel generalizing s with
  | zero => rw [List.eq_nil_of_length_eq_zero (by omega : s.length = 0)]; rfl
  | succ fuel ih =>
    cases s with
    | nil => rfl
    | cons c s =>
      rw [readLines, List.flatten_cons, ih, fgets_append]
      · have h1 := fgets_append (maxLineLength - 1) (c :: s)
        have h2 := fgets_nonempty (maxLineLength - 1) (c :: s) (by decide) (by simp)
        have h3 := congrArg List.length h1
        rw [List.length_append] at h3
        rw [← List.length_pos_iff] at h2
        omega
      · exact List.cons_ne_nil _ _

theorem readLines_short (fuel : Nat) (ls : List (List Char)) (h : ∀ l ∈ ls, '\n' ∉ l ∧ l.length < maxLineLength - 1)
    (hf : ls.length ≤ fuel) : readLines fuel (ls.map (fun l => l ++ ['\n'])).flatten = ls.map (fun l => l ++ ['\n']) := by
  induction ls generalizing fuel with
  | nil => cases fuel <;> rfl
  | cons l ls ih =>
    obtain ⟨f, rfl⟩ : ∃ f, fuel = f + 1 := ⟨fuel - 1, by simp at hf; omega⟩
    have hl := h l (by simp)
    have hs : ((l :: ls).map (fun l => l ++ ['\n'])).flatten = l ++ '\n' :: (ls.map (fun l => l ++ ['\n'])).flatten := by simp
    rw [hs, readLines, fgets_short _ _ _ hl.1 hl.2, ih f (fun l hl => h l (by simp [hl])) (by simpa using hf)]
    · rfl
    · simp

theorem fileLines_short (ls : List (List Char)) (h : ∀ l ∈ ls, '\n' ∉ l ∧ l.length < maxLineLength - 1) :
    fileLines (ls.map (fun l => l ++ ['\n'])).flatten = ls.map (fun l => l ++ ['\n']) := by
  apply readLines_short _ _ h
  induction ls with
  | nil => simp
  | cons l ls ih =>
    have := ih (fun l hl => h l (by simp [hl]))
    simp at this ⊢
    omega

theorem readLines_mem (fuel : Nat) (s l : List Char) (h : l ∈ readLines fuel s) : l ≠ [] ∧ l.length < maxLineLength := by
  induction fuel generalizing s with
  | zero => simp [readLines] at h
  | succ fuel ih =>
    cases s with
    | nil => simp [readLines] at h
    | cons c s =>
      rw [readLines, List.mem_cons] at h
      · rcases h with rfl | h
        · refine ⟨fgets_nonempty _ _ (by decide) (by simp), ?_⟩
          have := fgets_le (maxLineLength - 1) (c :: s)
          unfold maxLineLength at *
          omega
        · exact ih _ h
      · exact List.cons_ne_nil _ _

end Nip
