import Verif.Write
import Verif.Props.Read

/-!
# C64: time series written and read back
-/

namespace Nip.Props

open Nip Res Spec

/-- The series have the same length and give every variable the same value at every time step. -/
def SameSeries (vars : List Nat) (a b : TimeSeries) : Prop := b.length = a.length ∧ ∀ v ∈ vars, ∀ t < a.length, b.value v t = a.value v t

/-- **C64**, the claim about a set of series: what is written to a file reads back as it was. -/
def RoundTrip (x : VarTexts) (vars : List Nat) (set : List TimeSeries) : Prop :=
  ∃ text set', writeTimeseries x set = ok (0, some text) ∧ readTimeseries x vars text = ok (some set') ∧
    List.Forall₂ (SameSeries vars) set set'

/-- The series are series of the model, something is observed, and everything can be written to a file whose lines fit into the buffer for
lines. -/
structure Writable (x : VarTexts) (vars : List Nat) (width : Nat) (set : List TimeSeries) : Prop where
  model : x.Model vars
  printable : ∀ v ∈ vars, Printable x width v
  width : 4 ≤ width ∧ vars.length * (width + 1) < 9999
  valid : ∀ ts ∈ set, ts.Valid x vars
  observed : ∃ ts ∈ set, ts.observed ≠ []

theorem lookup_zip_get {β : Type} (l : List Nat) (hl : l.Nodup) (row : List β) (k v : Nat) (d : β) (h1 : l[k]? = some v)
    (h2 : row[k]? = some d) : (l.zip row).lookup v = some d := by
  induction l generalizing row k with
  | nil => simp at h1
  | cons a l ih =>
    cases row with
    | nil => simp at h2
    | cons b row =>
      rw [List.zip_cons_cons, List.lookup_cons]
      cases k with
      | zero =>
        simp only [List.getElem?_cons_zero, Option.some.injEq] at h1 h2
        subst h1 h2
        simp
      | succ k =>
        simp only [List.getElem?_cons_succ] at h1 h2
        have hne : v ≠ a := by
          rintro rfl
          exact (List.nodup_cons.1 hl).1 (List.mem_of_getElem? h1)
        have : (v == a) = false := by simpa using hne
        rw [this]
        exact ih (List.nodup_cons.1 hl).2 row k h1 h2

theorem lookup_zip_none {β : Type} (l : List Nat) (row : List β) (v : Nat) (h : v ∉ l) : (l.zip row).lookup v = none := by
  induction l generalizing row with
  | nil => rfl
  | cons a l ih =>
    cases row with
    | nil => rfl
    | cons b row =>
      rw [List.zip_cons_cons, List.lookup_cons]
      have : (v == a) = false := by
        simp only [beq_eq_false_iff_ne]
        rintro rfl
        exact h (List.mem_cons_self ..)
      rw [this]
      exact ih row (fun hc => h (List.mem_cons_of_mem _ hc))

theorem valid_fine {x : VarTexts} {vars : List Nat} {ts : TimeSeries} (h : ts.Valid x vars) : Fine x vars ts := by
  refine ⟨h.wellFormed, h.nodup, h.sub, ?_⟩
  intro t k v row d h1 h2 h3
  have := h.values v (h.sub v (List.mem_of_getElem? h3)) t
  unfold TimeSeries.value at this
  rw [h1, Option.bind_some, lookup_zip_get ts.observed h.nodup row k v d h3 h2, Option.getD_some] at this
  exact this

theorem cols_symbols {x : VarTexts} {vars : List Nat} (h : x.Model vars) (U : List Nat) (hU : ∀ v ∈ U, v ∈ vars) :
    cols x vars (U.map x.symbol) = U.zipIdx := by
  induction U using List.reverseRecOn with
  | nil => rfl
  | append_singleton U v ih =>
    rw [List.map_append, List.map_singleton, cols_snoc, ih (fun u hu => hU u (List.mem_append_left _ hu)),
      (search_symbol h _ _).2 ⟨hU v (by simp), rfl⟩, List.zipIdx_append]
    simp

theorem wordFor_word {x : VarTexts} {vars : List Nat} {width : Nat} (hp : ∀ v ∈ vars, Printable x width v) (hw : 4 ≤ width)
    (names : Nat → List (List Char)) (hx : ∀ v ∈ vars, x.Named v (names v)) (v : Nat) (hv : v ∈ vars) (d : Int) (hd : d < (x.card v : Int)) :
    isWord (wordFor names v d) ∧ (wordFor names v d).length ≤ width := by
  unfold wordFor
  by_cases h0 : 0 ≤ d
  · rw [if_pos h0]
    have hlt : d.toNat < (names v).length := by rw [(hx v hv).2]; omega
    rw [List.getD_eq_getElem _ _ hlt]
    have := ((hp v hv).states (names v) (hx v hv).1).2 _ (List.getElem_mem hlt)
    exact ⟨this.1, this.2.1⟩
  · rw [if_neg h0]
    refine ⟨⟨by decide, by decide⟩, ?_⟩
    exact hw

theorem round_trip {x : VarTexts} {vars : List Nat} {width : Nat} {set : List TimeSeries} (h : Writable x vars width set) :
    ∃ text set', writeTimeseries x set = ok (0, some text) ∧ readTimeseries x vars text = ok (some set') ∧
      List.Forall₂ (SameSeries vars) (set.filter (fun ts => 0 < ts.length)) set' := by
  obtain ⟨names, hx⟩ := all_named h.model
  obtain ⟨U, hU, hm, hw⟩ := writeTimeseries_eq x vars names hx set (fun ts hts => valid_fine (h.valid ts hts))
  have hU0 : U ≠ [] := by
    obtain ⟨ts, hts, hne⟩ := h.observed
    obtain ⟨v, hv⟩ := List.exists_mem_of_ne_nil _ hne
    rintro rfl
    exact absurd ((hm v).2 ⟨ts, hts, hv⟩) (by simp)
  rw [if_neg hU0] at hw
  refine ⟨unlines (allLines x names U set), ?_⟩
  have hUv : ∀ v ∈ U, v ∈ vars := by
    intro v hv
    obtain ⟨ts, hts, hvt⟩ := (hm v).1 hv
    exact (h.valid ts hts).sub v hvt
  have hUlen : U.length ≤ vars.length := List.Subperm.length_le (List.subperm_of_subset hU hUv)
  -- the words are words
  have hsym : ∀ w ∈ U.map x.symbol, isWord w ∧ w.length ≤ width := by
    intro w hwm
    obtain ⟨v, hv, rfl⟩ := List.mem_map.1 hwm
    exact (h.printable v (hUv v hv)).symbol
  have hrows : ∀ ts ∈ set, ∀ row ∈ ts.data, ∀ w ∈ rowWords names U ts row, isWord w ∧ w.length ≤ width := by
    intro ts hts row hrow w hwm
    obtain ⟨v, hv, rfl⟩ := List.mem_map.1 hwm
    exact wordFor_word h.printable h.width.1 names hx v (hUv v hv) _ ((valid_fine (h.valid ts hts)).bound hrow v).2
  have hbound : U.length * (width + 1) < 9999 := lt_of_le_of_lt (Nat.mul_le_mul_right _ hUlen) h.width.2
  -- the lines
  have hlines : ∀ l ∈ allLines x names U set, '\n' ∉ l ∧ l.length < maxLineLength - 1 := by
    intro l hl
    have hjoin : ∀ ws : List (List Char), ws.length = U.length → (∀ w ∈ ws, isWord w ∧ w.length ≤ width) →
        '\n' ∉ joinFields ws ∧ (joinFields ws).length < maxLineLength - 1 := by
      intro ws hlen hws
      refine ⟨join_newline ws (fun w hw => (hws w hw).1), ?_⟩
      have := join_length ws width (fun w hw => (hws w hw).2)
      rw [hlen] at this
      unfold maxLineLength
      omega
    rcases List.mem_cons.1 hl with rfl | hl
    · exact hjoin _ (List.length_map _) hsym
    · obtain ⟨ts, hts, hl⟩ := List.mem_flatMap.1 hl
      rcases List.mem_append.1 hl with hl | hl
      · obtain ⟨row, hrow, rfl⟩ := List.mem_map.1 hl
        exact hjoin _ (List.length_map _) (hrows ts hts row hrow)
      · obtain rfl := List.mem_singleton.1 hl
        exact ⟨by simp, by decide⟩
  have hfl : fileLines (unlines (allLines x names U set)) = (allLines x names U set).map (fun l => l ++ ['\n']) := fileLines_short _ hlines
  have hnb : ∀ ws : List (List Char), ws ≠ [] → (∀ w ∈ ws, isWord w ∧ w.length ≤ width) →
      blankLine fieldSeparator (joinFields ws ++ ['\n']) = false := by
    intro ws hne hws
    rw [Bool.eq_false_iff]
    intro hb
    rw [blank_fields, fields_join ws (fun w hw => (hws w hw).1)] at hb
    exact hne hb
  have hdrop : (fileLines (unlines (allLines x names U set))).dropWhile (blankLine fieldSeparator) =
      fileLines (unlines (allLines x names U set)) := by
    rw [hfl]
    unfold allLines
    rw [List.map_cons, List.dropWhile_cons_of_neg]
    rw [hnb _ (by simpa using hU0) hsym]
    simp
  have hhdr : hdr true fieldSeparator (fileLines (unlines (allLines x names U set))) = U.map x.symbol := by
    unfold hdr
    rw [if_pos rfl, hdrop, hfl]
    unfold allLines
    simp only [List.map_cons, List.head?_cons, Option.map_some, Option.getD_some]
    exact fields_join _ (fun w hw => (hsym w hw).1)
  have hser : series true fieldSeparator (fileLines (unlines (allLines x names U set))) =
      (set.filter (fun ts => 0 < ts.length)).map (fun ts => (seriesLines names U ts).map (fun l => l ++ ['\n'])) := by
    unfold series dataLines
    rw [if_pos rfl, hdrop, hfl]
    unfold allLines
    rw [List.map_cons, List.tail_cons, List.map_flatMap]
    have e1 : (set.flatMap fun ts => (seriesLines names U ts ++ [[]]).map (fun l => l ++ ['\n'])) =
        (set.map (fun ts => (seriesLines names U ts).map (fun l => l ++ ['\n']))).flatMap (fun rows => rows ++ [['\n']]) := by
      rw [List.flatMap_map]
      congr 1
      funext ts
      rw [List.map_append]
      rfl
    rw [e1, groups_lines _ _ (by decide)]
    · rw [List.filter_map]
      congr 1
      apply List.filter_congr
      intro ts hts
      have := (h.valid ts hts).wellFormed.rows
      rw [Bool.eq_iff_iff]
      simp only [Function.comp_apply, Bool.not_eq_true', List.isEmpty_eq_false_iff, ne_eq, List.map_eq_nil_iff, decide_eq_true_eq]
      unfold seriesLines
      rw [List.map_eq_nil_iff, ← List.length_eq_zero_iff, this]
      omega
    · intro rows hrows' r hr
      obtain ⟨ts, hts, rfl⟩ := List.mem_map.1 hrows'
      obtain ⟨l, hl, rfl⟩ := List.mem_map.1 hr
      obtain ⟨row, hrow, rfl⟩ := List.mem_map.1 hl
      refine hnb _ ?_ (hrows ts hts row hrow)
      unfold rowWords
      simpa using hU0
  have hcols := cols_symbols h.model U hUv
  have hcv : columnVars x vars (U.map x.symbol) = U := by
    unfold columnVars
    rw [hcols, List.zipIdx_map_fst]
  have hread := readTimeseries_eq x vars h.model.nodup names hx (unlines (allLines x names U set)) (by rw [hhdr, hcv]; exact hU)
  refine ⟨_, hw, hread, ?_⟩
  rw [hhdr, hser, List.map_map, List.forall₂_map_right_iff]
  refine List.forall₂_same.2 ?_
  intro ts hts
  obtain ⟨hts, hpos⟩ := List.mem_filter.1 hts
  have hval := h.valid ts hts
  have hrl : ts.data.length = ts.length := hval.wellFormed.rows
  refine ⟨?_, ?_⟩
  · show ((seriesLines names U ts).map (fun l => l ++ ['\n'])).length = ts.length
    rw [List.length_map]
    unfold seriesLines
    rw [List.length_map, hrl]
  · intro v hv t ht
    have htl : t < ts.data.length := by omega
    have hdata : (readTs x vars names (U.map x.symbol) ((seriesLines names U ts).map (fun l => l ++ ['\n']))).data[t]? =
        some (U.zipIdx.map (fieldValue names (rowWords names U ts ts.data[t]))) := by
      unfold readTs
      simp only
      rw [hcols, if_neg (by rw [List.length_zipIdx, List.length_eq_zero_iff]; exact hU0), List.getElem?_map, List.getElem?_map]
      unfold seriesLines
      rw [List.getElem?_map, List.getElem?_eq_getElem htl]
      simp only [Option.map_some, Option.some.injEq]
      rw [fields_join _ (fun w hw => (hrows ts hts _ (List.getElem_mem htl) w hw).1)]
    show (((readTs x vars names (U.map x.symbol) _).data[t]?).bind _).getD (-1) = _
    rw [hdata, Option.bind_some]
    show ((columnVars x vars (U.map x.symbol)).zip _ |>.lookup v).getD (-1) = _
    rw [hcv]
    unfold TimeSeries.value
    rw [List.getElem?_eq_getElem htl, Option.bind_some]
    by_cases hvU : v ∈ U
    · obtain ⟨k, hk⟩ := List.getElem?_of_mem hvU
      have hz : (U.zipIdx.map (fieldValue names (rowWords names U ts ts.data[t])))[k]? =
          some (fieldValue names (rowWords names U ts ts.data[t]) (v, k)) := by
        rw [List.getElem?_map, List.getElem?_zipIdx, hk]
        simp
      rw [lookup_zip_get U hU _ k v _ hk hz, Option.getD_some]
      have hb := (valid_fine hval).bound (List.getElem_mem htl) v
      unfold fieldValue rowWords
      simp only
      rw [List.getElem?_map, hk]
      simp only [Option.map_some]
      generalize ((ts.observed.zip ts.data[t]).lookup v).getD (-1) = d at hb
      have hst := (h.printable v hv).states (names v) (hx v hv).1
      unfold wordFor
      by_cases h0 : 0 ≤ d
      · rw [if_pos h0]
        have hlt : d.toNat < (names v).length := by rw [(hx v hv).2]; omega
        rw [List.getD_eq_getElem _ _ hlt, if_pos (List.getElem_mem hlt), List.Nodup.idxOf_getElem hst.1]
        omega
      · rw [if_neg h0, if_neg (fun hc => (hst.2 _ hc).2.2 rfl)]
        omega
    · rw [lookup_zip_none U _ v hvU, lookup_zip_none ts.observed _ v (fun hc => hvU ((hm v).2 ⟨ts, hts, hc⟩))]

/-- **C64** (partial).  Every set of series of which none is empty reads back as it was. -/
theorem C64_round_trip_partial (x : VarTexts) (vars : List Nat) (width : Nat) (set : List TimeSeries) (h : Writable x vars width set)
    (hne : ∀ ts ∈ set, 0 < ts.length) : RoundTrip x vars set := by
  obtain ⟨text, set', h1, h2, h3⟩ := round_trip h
  rw [List.filter_eq_self.2 (fun ts hts => by simpa using hne ts hts)] at h3
  exact ⟨text, set', h1, h2, h3⟩

/-- **C64** is false of every set with an empty series: exactly the series that are not empty read back. -/
theorem C64_empty_refuted (x : VarTexts) (vars : List Nat) (width : Nat) (set : List TimeSeries) (h : Writable x vars width set)
    (hempty : ∃ ts ∈ set, ts.length = 0) :
    ¬ RoundTrip x vars set ∧
    ∃ text set', writeTimeseries x set = ok (0, some text) ∧ readTimeseries x vars text = ok (some set') ∧
      List.Forall₂ (SameSeries vars) (set.filter (fun ts => 0 < ts.length)) set' := by
  obtain ⟨text, set', h1, h2, h3⟩ := round_trip h
  refine ⟨?_, text, set', h1, h2, h3⟩
  rintro ⟨text', set'', h1', h2', h3'⟩
  rw [h1, ok.injEq, Prod.mk.injEq, Option.some.injEq] at h1'
  obtain ⟨_, rfl⟩ := h1'
  rw [h2, ok.injEq, Option.some.injEq] at h2'
  subst h2'
  have := h3.length_eq.trans h3'.length_eq.symm
  obtain ⟨ts, hts, h0⟩ := hempty
  have := (List.length_filter_eq_length_iff.1 this) ts hts
  simp [h0] at this

/-- Three series with different variables, one empty. -/
def demoSet : List TimeSeries :=
  [demoSeries, { numVars := 3, numHidden := 2, hidden := [1, 2], numObserved := 1, observed := [3], length := 1, data := [[1]] },
    { numVars := 3, numHidden := 3, hidden := [1, 2, 3], numObserved := 0, observed := [], length := 2, data := [[], []] }]

example : writeTimeseries demoTexts demoSet =
    ok (0, some "B,A,C\nno,y,null\ndunno,null,null\nyes,x,null\n\nnull,null,yes\n\nnull,null,null\nnull,null,null\n\n".toList) := by
  decide +kernel

theorem valid_of {x : VarTexts} {vars : List Nat} {ts : TimeSeries} (h1 : ts.WellFormed) (h2 : ts.observed.Nodup)
    (h3 : ∀ v ∈ ts.observed, v ∈ vars)
    (h4 : ∀ row ∈ ts.data, ∀ v ∈ vars, -1 ≤ ((ts.observed.zip row).lookup v).getD (-1) ∧
      ((ts.observed.zip row).lookup v).getD (-1) < (x.card v : Int)) : ts.Valid x vars := by
  refine ⟨h1, h2, h3, ?_⟩
  intro v hv t
  unfold TimeSeries.value
  cases ht : ts.data[t]? with
  | none =>
    rw [Option.bind_none, Option.getD_none]
    exact ⟨le_refl _, by omega⟩
  | some row => exact h4 row (List.mem_of_getElem? ht) v hv

instance (w : List Char) : Decidable (Word w) := inferInstanceAs (Decidable (_ ∧ _))

theorem printable_of {x : VarTexts} {width v : Nat} (names : List (List Char)) (h1 : x.names v = some names)
    (h2 : Word (x.symbol v) ∧ (x.symbol v).length ≤ width)
    (h3 : names.Nodup ∧ ∀ name ∈ names, Word name ∧ name.length ≤ width ∧ name ≠ "null".toList) : Printable x width v := by
  refine ⟨h2, ?_⟩
  intro names' h
  rw [h1] at h
  rw [← Option.some.inj h]
  exact h3

theorem demoTexts_printable : ∀ v ∈ [1, 2, 3], Printable demoTexts 5 v := by
  intro v hv
  rcases List.mem_cons.1 hv with rfl | hv
  · exact printable_of _ rfl (by decide) (by decide)
  · rcases List.mem_cons.1 hv with rfl | hv
    · exact printable_of _ rfl (by decide) (by decide)
    · obtain rfl := List.mem_singleton.1 hv
      exact printable_of _ rfl (by decide) (by decide)

theorem demoSet_valid : ∀ ts ∈ demoSet, ts.Valid demoTexts [1, 2, 3] := by
  intro ts hts
  rcases List.mem_cons.1 hts with rfl | hts
  · exact valid_of ⟨by decide, by decide, by decide, by decide⟩ (by decide) (by decide) (by decide)
  · rcases List.mem_cons.1 hts with rfl | hts
    · exact valid_of ⟨by decide, by decide, by decide, by decide⟩ (by decide) (by decide) (by decide)
    · obtain rfl := List.mem_singleton.1 hts
      exact valid_of ⟨by decide, by decide, by decide, by decide⟩ (by decide) (by decide) (by decide)

theorem demoSet_writable : Writable demoTexts [1, 2, 3] 5 demoSet :=
  ⟨demoTexts_model, demoTexts_printable, by decide, demoSet_valid, demoSeries, by decide, by decide⟩

/-- The hypotheses of `C64_round_trip_partial` are met. -/
example : RoundTrip demoTexts [1, 2, 3] demoSet := C64_round_trip_partial _ _ 5 _ demoSet_writable (by decide)

/-- An empty series. -/
def emptySeries : TimeSeries := { numVars := 3, numHidden := 2, hidden := [2, 3], numObserved := 1, observed := [1], length := 0, data := [] }

/-- The hypotheses of `C64_empty_refuted` are met. -/
example : ¬ RoundTrip demoTexts [1, 2, 3] (emptySeries :: demoSet) := by
  refine (C64_empty_refuted _ _ 5 _ ⟨demoTexts_model, demoTexts_printable, by decide, ?_, demoSeries, by decide, by decide⟩
    ⟨emptySeries, by decide, rfl⟩).1
  intro ts hts
  rcases List.mem_cons.1 hts with rfl | hts
  · exact valid_of ⟨by decide, by decide, by decide, by decide⟩ (by decide) (by decide) (by decide)
  · exact demoSet_valid ts hts

/-- A variable with a state called `null`. -/
def nullTexts : VarTexts where
  symbol := fun _ => "A".toList
  card := fun _ => 2
  names := fun _ => some ["null".toList, "x".toList]

/-- **C64** is false for states called `null`: a missing value reads back as that state. -/
theorem C64_null_refuted :
    ¬ RoundTrip nullTexts [1] [{ numVars := 1, numHidden := 0, hidden := [], numObserved := 1, observed := [1], length := 1, data := [[-1]] }] := by
  rintro ⟨text, set', h1, h2, h3⟩
  have e1 : writeTimeseries nullTexts
      [{ numVars := 1, numHidden := 0, hidden := [], numObserved := 1, observed := [1], length := 1, data := [[-1]] }] =
      ok (0, some "A\nnull\n\n".toList) := by decide +kernel
  rw [e1, ok.injEq, Prod.mk.injEq, Option.some.injEq] at h1
  obtain ⟨_, rfl⟩ := h1
  have e2 : readTimeseries nullTexts [1] "A\nnull\n\n".toList = ok (some
      [{ numVars := 1, numHidden := 0, hidden := [], numObserved := 1, observed := [1], length := 1, data := [[0]] }]) := by decide +kernel
  rw [e2, ok.injEq, Option.some.injEq] at h2
  subst h2
  obtain ⟨⟨_, h4⟩, _⟩ := List.forall₂_cons.1 h3
  exact absurd (h4 1 (by decide) 0 (by decide)) (by decide)

end Nip.Props
