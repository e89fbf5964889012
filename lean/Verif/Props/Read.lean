import Verif.Read
import Verif.Props.Series

/-!
# C63: reading time series
-/

namespace Nip.Props

open Nip Res Spec

/-- **C63**, the claim about a model and a file: one series for each group of lines, which says what the lines say. -/
def ReadsRight (x : VarTexts) (vars : List Nat) (file : List Char) : Prop :=
  ∃ set, readTimeseries x vars file = ok (some set) ∧
    List.Forall₂ (Delivers x vars (headerFields ',' (fileLines file))) (series true ',' (fileLines file)) set

/-- No variable of the model has two columns. -/
def OneColumn (x : VarTexts) (vars : List Nat) (header : List (List Char)) : Prop :=
  ∀ v ∈ vars, ∀ c c' : Nat, header[c]? = some (x.symbol v) → header[c']? = some (x.symbol v) → c = c'

theorem hdr_eq (sep : Char) (lines : List (List Char)) : hdr true sep lines = headerFields sep lines := by
  unfold hdr headerFields
  rw [if_pos rfl]
  cases lines.dropWhile (blankLine sep) <;> rfl

theorem search_symbol {x : VarTexts} {vars : List Nat} (h : x.Model vars) (s : List Char) (v : Nat) :
    x.search vars s = some v ↔ v ∈ vars ∧ s = x.symbol v := by
  unfold VarTexts.search
  constructor
  · intro hf
    exact ⟨List.mem_of_find?_eq_some hf, by simpa using List.find?_some hf⟩
  · rintro ⟨hv, rfl⟩
    cases hf : vars.find? (fun u => x.symbol v == x.symbol u) with
    | none => simpa using (List.find?_eq_none.1 hf) v hv
    | some u =>
      have := List.find?_some hf
      rw [beq_iff_eq] at this
      rw [h.symbols u (List.mem_of_find?_eq_some hf) v hv this.symm]

theorem all_named {x : VarTexts} {vars : List Nat} (h : x.Model vars) :
    ∃ names : Nat → List (List Char), ∀ v ∈ vars, x.Named v (names v) := by
  classical
  choose g hg using h.named
  exact ⟨fun v => if hv : v ∈ vars then g v hv else [], fun v hv => by beta_reduce; rw [dif_pos hv]; exact hg v hv⟩

theorem columns_once {x : VarTexts} {vars : List Nat} (h : x.Model vars) (header : List (List Char)) :
    (columnVars x vars header).Nodup ↔ OneColumn x vars header := by
  constructor
  · intro hn v hv c c' hc hc'
    have h1 : (v, c) ∈ cols x vars header := (mem_cols x vars header v c).2 ⟨_, hc, (search_symbol h _ _).2 ⟨hv, rfl⟩⟩
    have h2 : (v, c') ∈ cols x vars header := (mem_cols x vars header v c').2 ⟨_, hc', (search_symbol h _ _).2 ⟨hv, rfl⟩⟩
    have := List.inj_on_of_nodup_map hn h1 h2 rfl
    exact (Prod.mk.inj this).2
  · intro ho
    refine List.Nodup.map_on ?_ ?_
    · rintro ⟨v, c⟩ h1 ⟨v', c'⟩ h2 (rfl : v = v')
      obtain ⟨s, hs, hv⟩ := (mem_cols x vars header v c).1 h1
      obtain ⟨s', hs', hv'⟩ := (mem_cols x vars header v c').1 h2
      obtain ⟨hm, rfl⟩ := (search_symbol h _ _).1 hv
      obtain ⟨_, rfl⟩ := (search_symbol h _ _).1 hv'
      rw [ho v hm c c' hs hs']
    · unfold cols
      refine List.Nodup.filterMap ?_ ?_
      · rintro ⟨s, c⟩ ⟨s', c'⟩ ⟨w, d⟩ h1 h2
        simp only [Option.mem_def, Option.map_eq_some_iff, Prod.mk.injEq] at h1 h2
        obtain ⟨_, e1, rfl, rfl⟩ := h1
        obtain ⟨_, e2, rfl, rfl⟩ := h2
        obtain ⟨_, rfl⟩ := (search_symbol h _ _).1 e1
        obtain ⟨_, rfl⟩ := (search_symbol h _ _).1 e2
        rfl
      · refine List.Nodup.of_map Prod.snd ?_
        rw [List.zipIdx_map_snd]
        exact List.nodup_range'

/-- **C63** (partial).  Every file in which no variable of the model has two columns and each line has a field for every column of a variable
of the model is read as it should. -/
theorem C63_reads_partial (x : VarTexts) (vars : List Nat) (h : x.Model vars) (file : List Char)
    (hcol : OneColumn x vars (headerFields ',' (fileLines file)))
    (hlong : ∀ lines ∈ series true ',' (fileLines file), ∀ line ∈ lines, ∀ v ∈ vars, ∀ c : Nat,
      (headerFields ',' (fileLines file))[c]? = some (x.symbol v) → c < (fields ',' line).length) :
    ReadsRight x vars file := by
  obtain ⟨names, hn⟩ := all_named h
  set H := headerFields ',' (fileLines file) with hH
  have hnd : (columnVars x vars H).Nodup := (columns_once h H).2 hcol
  have hd := hnd
  rw [hH, ← hdr_eq] at hd
  refine ⟨_, readTimeseries_eq x vars h.nodup names hn file hd, ?_⟩
  rw [List.forall₂_map_right_iff]
  refine List.forall₂_same.2 ?_
  intro lines hl
  have hh : hdr true fieldSeparator (fileLines file) = H := hdr_eq _ _
  rw [hh]
  have hmem : ∀ v, v ∈ columnVars x vars H ↔ v ∈ vars ∧ x.symbol v ∈ H := by
    intro v
    rw [mem_columnVars]
    constructor
    · rintro ⟨s, hs, hv⟩
      obtain ⟨hm, rfl⟩ := (search_symbol h _ _).1 hv
      exact ⟨hm, hs⟩
    · rintro ⟨hv, hs⟩
      exact ⟨_, hs, (search_symbol h _ _).2 ⟨hv, rfl⟩⟩
  have hot : others x vars H vars = vars.filter (fun v => x.symbol v ∉ H) := by
    rw [others_eq]
    apply List.filter_congr
    intro v hv
    rw [decide_eq_decide, hmem]
    simp [hv]
  have hlen := others_length x vars H h.nodup
  rw [hnd.dedup] at hlen
  have hcl : (columnVars x vars H).length = (cols x vars H).length := List.length_map _
  refine ⟨rfl, rfl, ?_, hot, hcl.symm, hnd, hmem, ?_⟩
  · show (vars.length : Int) - (cols x vars H).length = (others x vars H vars).length
    omega
  · intro t line k v c ht hk hc
    have hk' : (columnVars x vars H)[k]? = some v := hk
    have hkl : k < (cols x vars H).length := by
      rw [← hcl]
      exact (List.getElem?_eq_some_iff.1 hk').1
    have hv : v ∈ vars := ((hmem v).1 (List.mem_of_getElem? hk')).1
    refine ⟨(cols x vars H).map (fieldValue names (fields fieldSeparator line)), fieldValue names (fields ',' line) (v, c), ?_, ?_, ?_⟩
    · show (if (cols x vars H).length = 0 then [] else _)[t]? = _
      rw [if_neg (by omega), List.getElem?_map, ht]
      rfl
    · rw [List.getElem?_map, List.getElem?_eq_getElem hkl, Option.map_some]
      have e1 : ((cols x vars H)[k]).1 = v := by
        unfold columnVars at hk'
        rw [List.getElem?_map, List.getElem?_eq_getElem hkl, Option.map_some] at hk'
        exact Option.some.inj hk'
      have e2 : ((cols x vars H)[k]).2 = c := by
        have hin : (v, ((cols x vars H)[k]).2) ∈ cols x vars H := by
          rw [← e1]
          exact List.getElem_mem hkl
        obtain ⟨s, hs, hsv⟩ := (mem_cols x vars H _ _).1 hin
        obtain ⟨_, rfl⟩ := (search_symbol h _ _).1 hsv
        exact hcol v hv _ _ hs hc
      have : (cols x vars H)[k] = (v, c) := Prod.ext e1 e2
      rw [this]
      rfl
    · have hlt := hlong lines hl line (List.mem_of_getElem? ht) v hv c hc
      unfold fieldValue
      simp only
      rw [List.getElem?_eq_getElem hlt]
      simp only
      set w := (fields ',' line)[c] with hw
      by_cases hin : w ∈ names v
      · rw [if_pos hin]
        refine Or.inl ⟨names v, w, (names v).idxOf w, (hn v hv).1, rfl, ?_, ?_, rfl⟩
        · rw [List.getElem?_eq_getElem (List.idxOf_lt_length_iff.2 hin), List.getElem_idxOf]
        · intro j hj hcon
          obtain ⟨hjl, hje⟩ := List.getElem?_eq_some_iff.1 hcon
          have := List.not_of_lt_findIdx (p := fun y => y == w) hj
          simp [hje] at this
      · rw [if_neg hin]
        refine Or.inr ⟨rfl, ?_⟩
        rintro names' word h1 h2
        rw [(hn v hv).1] at h1
        rw [← Option.some.inj h1, ← Option.some.inj h2]
        exact hin

/-- **C63** is false if a variable of the model has two columns: nothing is ever read from such a file (the array of the hidden variables
is too small). -/
theorem C63_two_columns_refuted (x : VarTexts) (vars : List Nat) (h : x.Model vars) (file : List Char)
    (hcol : ¬ OneColumn x vars (headerFields ',' (fileLines file))) (hs : series true ',' (fileLines file) ≠ []) :
    (∀ set, readTimeseries x vars file ≠ ok (some set)) ∧ ¬ ReadsRight x vars file := by
  have : ∀ set, readTimeseries x vars file ≠ ok (some set) := by
    intro set
    refine readTimeseries_double x vars h.nodup file ?_ hs set
    have := (columns_once h (headerFields ',' (fileLines file))).not.2 hcol
    rwa [← hdr_eq] at this
  exact ⟨this, fun ⟨set, hset, _⟩ => this set hset⟩

/-- **C63** is false if a line is too short: the variables without a field are not missing, but in their first state. -/
theorem C63_short_line_refuted (x : VarTexts) (vars : List Nat) (h : x.Model vars) (file : List Char)
    (hcol : OneColumn x vars (headerFields ',' (fileLines file)))
    (n : Nat) (lines : List (List Char)) (t : Nat) (line : List Char) (v c : Nat)
    (hn : (series true ',' (fileLines file))[n]? = some lines) (ht : lines[t]? = some line) (hv : v ∈ vars)
    (hc : (headerFields ',' (fileLines file))[c]? = some (x.symbol v)) (hshort : (fields ',' line).length ≤ c) :
    (∃ set ts row, ∃ k : Nat, readTimeseries x vars file = ok (some set) ∧ set[n]? = some ts ∧ ts.data[t]? = some row ∧
      ts.observed[k]? = some v ∧ row[k]? = some 0) ∧ ¬ ReadsRight x vars file := by
  obtain ⟨names, hnames⟩ := all_named h
  set H := headerFields ',' (fileLines file) with hH
  have hnd : (columnVars x vars H).Nodup := (columns_once h H).2 hcol
  have hd := hnd
  rw [hH, ← hdr_eq] at hd
  have hread := readTimeseries_eq x vars h.nodup names hnames file hd
  have hh : hdr true fieldSeparator (fileLines file) = H := hdr_eq _ _
  rw [hh] at hread
  have hmem : (v, c) ∈ cols x vars H := (mem_cols x vars H v c).2 ⟨_, hc, (search_symbol h _ _).2 ⟨hv, rfl⟩⟩
  obtain ⟨k, hk⟩ := List.getElem?_of_mem hmem
  have hobs : (columnVars x vars H)[k]? = some v := by
    unfold columnVars
    rw [List.getElem?_map, hk]
    rfl
  have hdata : (readTs x vars names H lines).data[t]? = some ((cols x vars H).map (fieldValue names (fields fieldSeparator line))) := by
    show (if (cols x vars H).length = 0 then [] else _)[t]? = _
    have := (List.getElem?_eq_some_iff.1 hk).1
    rw [if_neg (by omega), List.getElem?_map, ht]
    rfl
  have hrow : ((cols x vars H).map (fieldValue names (fields fieldSeparator line)))[k]? = some 0 := by
    rw [List.getElem?_map, hk, Option.map_some]
    unfold fieldValue
    simp only
    rw [List.getElem?_eq_none (show (fields fieldSeparator line).length ≤ c from hshort)]
  have hset : ((series true fieldSeparator (fileLines file)).map (readTs x vars names H))[n]? = some (readTs x vars names H lines) := by
    rw [List.getElem?_map]
    exact congrArg (Option.map _) hn
  refine ⟨⟨_, _, _, k, hread, hset, hdata, hobs, hrow⟩, ?_⟩
  rintro ⟨set, hset', hall⟩
  rw [hread, ok.injEq, Option.some.injEq] at hset'
  subst hset'
  have hdel : Delivers x vars H lines (readTs x vars names H lines) := by
    have hall' : List.Forall₂ (Delivers x vars H) (series true ',' (fileLines file))
        ((series true ',' (fileLines file)).map (readTs x vars names H)) := hall
    rw [List.forall₂_map_right_iff] at hall'
    exact List.forall₂_same.1 hall' lines (List.mem_of_getElem? hn)
  obtain ⟨row, d, h1, h2, h3⟩ := hdel.values t line k v c ht hobs hc
  rw [hdata] at h1
  obtain rfl := Option.some.inj h1
  rw [hrow] at h2
  obtain rfl := Option.some.inj h2
  rw [List.getElem?_eq_none hshort] at h3
  rcases h3 with ⟨_, _, _, _, h3, _⟩ | ⟨h3, _⟩
  · cases h3
  · cases h3

theorem nodup_once {x : VarTexts} {vars : List Nat} {header : List (List Char)} (h : header.Nodup) : OneColumn x vars header := by
  intro v _ c c' hc hc'
  obtain ⟨h1, e1⟩ := List.getElem?_eq_some_iff.1 hc
  obtain ⟨h2, e2⟩ := List.getElem?_eq_some_iff.1 hc'
  exact (List.Nodup.getElem_inj_iff h).1 (e1.trans e2.symm)

/-- A file with a column that is not in the model, a text that is no state, blank lines and a line that is too long. -/
def demoFileText : List Char := "B,Q, A\n\nyes,1,x\nfoo,2,y\n\n\nno 3 x extra\n".toList

theorem demoTexts_model : demoTexts.Model [1, 2, 3] :=
  ⟨by decide, by decide, by
    intro v hv
    rcases List.mem_cons.1 hv with rfl | hv
    · exact ⟨_, rfl, by decide⟩
    · rcases List.mem_cons.1 hv with rfl | hv
      · exact ⟨_, rfl, by decide⟩
      · obtain rfl := List.mem_singleton.1 hv
        exact ⟨_, rfl, by decide⟩⟩

example : readTimeseries demoTexts [1, 2, 3] demoFileText = ok (some
    [⟨3, 1, [3], 2, [2, 1], 2, [[1, 0], [-1, 1]]⟩, ⟨3, 1, [3], 2, [2, 1], 1, [[0, 0]]⟩]) := by decide +kernel

/-- The hypotheses of `C63_reads_partial` are met. -/
example : ReadsRight demoTexts [1, 2, 3] demoFileText := by
  have hhead : headerFields ',' (fileLines demoFileText) = ["B".toList, "Q".toList, "A".toList] := by decide +kernel
  have hser : series true ',' (fileLines demoFileText) =
      [["yes,1,x\n".toList, "foo,2,y\n".toList], ["no 3 x extra\n".toList]] := by decide +kernel
  refine C63_reads_partial demoTexts [1, 2, 3] demoTexts_model demoFileText ?_ ?_
  · rw [hhead]
    exact nodup_once (by decide)
  · rw [hhead, hser]
    intro lines hl line hline v hv c hc
    have h1 := (List.getElem?_eq_some_iff.1 hc).1
    have key : ∀ lines ∈ [["yes,1,x\n".toList, "foo,2,y\n".toList], ["no 3 x extra\n".toList]], ∀ line ∈ lines,
        3 ≤ (fields ',' line).length := by decide +kernel
    have := key lines hl line hline
    simp only [List.length_cons, List.length_nil] at h1
    omega

/-- In the second line there is no field for `A`, which is read as the state `x`. -/
example : readTimeseries demoTexts [1, 2, 3] "B,A\nno,y\nyes\n".toList = ok (some [⟨3, 1, [3], 2, [2, 1], 2, [[0, 1], [1, 0]]⟩]) := by
  decide +kernel

example : ¬ ReadsRight demoTexts [1, 2, 3] "B,A\nno,y\nyes\n".toList := by
  have hhead : headerFields ',' (fileLines "B,A\nno,y\nyes\n".toList) = ["B".toList, "A".toList] := by decide +kernel
  have hser : series true ',' (fileLines "B,A\nno,y\nyes\n".toList) = [["no,y\n".toList, "yes\n".toList]] := by decide +kernel
  refine (C63_short_line_refuted demoTexts [1, 2, 3] demoTexts_model _ ?_ 0 ["no,y\n".toList, "yes\n".toList] 1 "yes\n".toList 1 1 ?_ ?_
    (by decide) ?_ ?_).2
  · rw [hhead]
    exact nodup_once (by decide)
  · rw [hser]; rfl
  · rfl
  · rw [hhead]; rfl
  · decide +kernel

/-- Two columns for `B`: the only place for a hidden variable is followed by a write outside the array. -/
example : readTimeseries demoTexts [1, 2, 3] "B,B\nno,yes\n".toList = ub := by decide +kernel

end Nip.Props
