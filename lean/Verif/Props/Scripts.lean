import Verif.ScriptsLemmas

/-!
# C98: `select.awk` and `hide_values.awk`

`Verif/Spec/Scripts.lean` says what they should do; `Verif/Scripts.lean` is the code.  `num` says which texts look like numbers.
-/

namespace Nip.Props

open Nip Spec

/-- The full claim about `select.awk` when there is a column (only one) with the name: what is printed is the column. -/
def C98_select_full (num : List Char → Option ℚ) : Prop :=
  ∀ var text lines above header below k, TextOf lines text → HasHeader lines above header below → header[k]? = some var → (∀ j, header[j]? = some var → j = k) →
    selectScript num var text = (columnText k lines, [], 0)

/-- The full claim about `select.awk` when there is no column with the name: no data are printed, and the exit code is 1. -/
def C98_missing_full (num : List Char → Option ℚ) : Prop :=
  ∀ var text lines above header below, TextOf lines text → HasHeader lines above header below → var ∉ header →
    ∃ out err, selectScript num var text = (out, err, 1) ∧ ∀ c ∈ out, c = '\n'

/-- The full claim about `hide_values.awk`. -/
def C98_hide_full : Prop :=
  ∀ prob random text lines above header below, TextOf lines text → HasHeader lines above header below →
    hideScript prob random text = linesText (hiddenFile prob random above header below)

/-- Every text is that of a data file. -/
theorem C98_every_text (text : List Char) : ∃ lines, TextOf lines text := text_exists text

/-- `select.awk` prints the column if the name does not look like a number and is not empty (or no line is longer than the header).  Missing: names that look like numbers; there
it is false (`C98_number_refuted`). -/
theorem C98_select_partial (num : List Char → Option ℚ) (var text : List Char) (lines : List (List (List Char))) (above : Nat) (header : List (List Char))
    (below : List (List (List Char))) (k : Nat) (ht : TextOf lines text) (hh : HasHeader lines above header below) (hk : header[k]? = some var)
    (hone : ∀ j, header[j]? = some var → j = k) (hv : num var = none) (hlong : var ≠ [] ∨ ∀ l ∈ below, l.length ≤ header.length) :
    selectScript num var text = (columnText k lines, [], 0) := by
  obtain ⟨rfl, h0⟩ := hh
  unfold selectScript
  have hch : CleanLine header := ht.1 header (by simp)
  rw [awkRecords_text ht, List.map_append, List.foldl_append, Select.empties _ _ _ _ rfl, List.map_cons, List.foldl_cons, Select.record_fields _ _ _ hch rfl, if_neg h0]
  have hd := Select.header_fold (num := num) (var := var) header 0 { out := List.replicate above '\n' } rfl rfl h0
  rw [Nat.zero_add] at hd
  rw [List.nil_append, hd]
  have hfound : header.any (fun f => awkEq num (some var) (some f)) = true := by
    rw [List.any_eq_true]
    exact ⟨var, List.mem_of_getElem? hk, by rw [(awkEq_text hv var).2]; simp⟩
  have hout : header.flatMap (fun f => if awkEq num (some f) (some var) then f else []) = header.getD k [] := by
    have := pick_column header 0 k
    rw [if_pos (Nat.zero_le k), Nat.sub_zero] at this
    rw [← this]
    have h1 : header.flatMap (fun f => if awkEq num (some f) (some var) then f else []) = header.zipIdx.flatMap (fun f => if awkEq num (some f.1) (some var) then f.1 else []) := by
      have : header = header.zipIdx.map Prod.fst := by simp
      conv_lhs => rw [this]
      rw [List.flatMap_map]
    rw [h1]
    refine List.flatMap_congr fun f hf => ?_
    have hf' : header[f.2]? = some f.1 := by
      have := List.mem_zipIdx hf
      rw [List.getElem?_eq_getElem (by omega)]
      simp [this.2.2]
    rw [(awkEq_text hv f.1).1]
    by_cases hfk : f.2 = k
    · have : f.1 = var := by
        rw [hfk, hk] at hf'
        exact (Option.some.inj hf').symm
      simp [hfk, this]
    · have : f.1 ≠ var := fun e => hfk (hone f.2 (by rw [hf', e]))
      simp [hfk, this]
  rw [hfound, hout]
  obtain ⟨line, hb⟩ := Select.below (num := num) (var := var) (k := k) below
    ⟨1, true, fun j => if 0 ≤ j ∧ j < header.length then header[j - 0]? else none, List.replicate above '\n' ++ header.getD k [] ++ ['\n'], [], false⟩
    (fun x hx => ht.1 x (by simp [hx])) rfl (by simp) rfl (by
      intro l hl j hj
      simp only [Nat.zero_le, true_and, Nat.sub_zero]
      by_cases hjh : j < header.length
      · rw [if_pos hjh, List.getElem?_eq_getElem hjh, (awkEq_text hv _).1]
        by_cases hjk : j = k
        · subst hjk
          rw [List.getElem?_eq_getElem hjh] at hk
          simpa using hk
        · have : header[j] ≠ var := fun e => hjk (hone j (by rw [List.getElem?_eq_getElem hjh, e]))
          simp [hjk, this]
      · rw [if_neg hjh, awkEq_unset hv]
        have hjk : j ≠ k := by
          rintro rfl
          rw [List.getElem?_eq_none (by omega)] at hk
          cases hk
        rcases hlong with h | h
        · have : ¬ [] = var := fun e => h e.symm
          simp [hjk, this]
        · have := h l hl
          omega)
  simp only [Bool.false_or] at hb ⊢
  rw [hb]
  have hr := replicate_lines (fun l => l.getD k [] ++ ['\n']) rfl above
  unfold columnText
  rw [List.flatMap_append, hr, List.flatMap_cons]
  simp

/-- The column is not there, and there is another line that is not empty: the empty lines and an empty line for the header are printed, and the exit code is 1.  Missing: names
that look like numbers, and files with nothing below the header (`C98_header_only_refuted`). -/
theorem C98_missing_partial (num : List Char → Option ℚ) (var text : List Char) (lines : List (List (List Char))) (above between : Nat) (header l : List (List Char))
    (below : List (List (List Char))) (ht : TextOf lines text) (hh : HasHeader lines above header (List.replicate between [] ++ l :: below)) (hl : l ≠ []) (hk : var ∉ header)
    (hv : num var = none) :
    selectScript num var text = (List.replicate (above + 1 + between) '\n', "select.awk: Variable ".toList ++ var ++ " not found!\n".toList, 1) := by
  obtain ⟨rfl, h0⟩ := hh
  unfold selectScript
  have hch : CleanLine header := ht.1 header (by simp)
  have hcl : CleanLine l := ht.1 l (by simp)
  rw [awkRecords_text ht, List.map_append, List.foldl_append, Select.empties _ _ _ _ rfl, List.map_cons, List.foldl_cons, Select.record_fields _ _ _ hch rfl, if_neg h0]
  have hd := Select.header_fold (num := num) (var := var) header 0 { out := List.replicate above '\n' } rfl rfl h0
  rw [Nat.zero_add] at hd
  rw [List.nil_append, hd]
  have hfound : header.any (fun f => awkEq num (some var) (some f)) = false := by
    rw [List.any_eq_false]
    intro f hf
    rw [(awkEq_text hv f).2]
    simp only [decide_eq_true_eq]
    rintro rfl
    exact hk hf
  have hout : header.flatMap (fun f => if awkEq num (some f) (some var) then f else []) = [] := by
    rw [List.flatMap_eq_nil_iff]
    intro f hf
    rw [(awkEq_text hv f).1, if_neg]
    simp only [decide_eq_true_eq]
    rintro rfl
    exact hk hf
  rw [hfound, hout, List.map_append, List.foldl_append, Select.empties _ _ _ _ rfl, List.map_cons, List.foldl_cons, Select.record_fields _ _ _ hcl rfl, if_neg hl,
    Select.lost hl _ rfl rfl rfl, Select.exited_fold _ _ _ _ rfl]
  simp only [List.append_nil, replicate_three]
  rfl

/-- A file with a header and nothing below it: the exit code is 0 though the column is not there. -/
theorem C98_header_only_refuted (num : List Char → Option ℚ) (var text : List Char) (lines : List (List (List Char))) (above between : Nat) (header : List (List Char))
    (ht : TextOf lines text) (hh : HasHeader lines above header (List.replicate between [])) (hk : var ∉ header) (hv : num var = none) :
    selectScript num var text = (List.replicate (above + 1 + between) '\n', [], 0) := by
  obtain ⟨rfl, h0⟩ := hh
  unfold selectScript
  have hch : CleanLine header := ht.1 header (by simp)
  rw [awkRecords_text ht, List.map_append, List.foldl_append, Select.empties _ _ _ _ rfl, List.map_cons, List.foldl_cons, Select.record_fields _ _ _ hch rfl, if_neg h0]
  have hd := Select.header_fold (num := num) (var := var) header 0 { out := List.replicate above '\n' } rfl rfl h0
  rw [Nat.zero_add] at hd
  rw [List.nil_append, hd]
  have hout : header.flatMap (fun f => if awkEq num (some f) (some var) then f else []) = [] := by
    rw [List.flatMap_eq_nil_iff]
    intro f hf
    rw [(awkEq_text hv f).1, if_neg]
    simp only [decide_eq_true_eq]
    rintro rfl
    exact hk hf
  rw [hout, Select.empties _ _ _ _ rfl]
  simp only [List.append_nil, replicate_three]
  rfl

/-- Names that look like numbers: with the columns `1.0` and `1` both are printed, one after the other, for the name `1`. -/
theorem C98_number_refuted (num : List Char → Option ℚ) (h1 : num ['1'] = some 1) (h2 : num ['1', '.', '0'] = some 1) :
    selectScript num ['1'] "1.0,1\na,b\n".toList = ("1.01\nab\n".toList, [], 0) ∧ ¬ C98_select_full num := by
  have h : selectScript num ['1'] "1.0,1\na,b\n".toList = ("1.01\nab\n".toList, [], 0) := by
    have hr : awkRecords [] "1.0,1\na,b\n".toList = [['1', '.', '0', ',', '1'], ['a', ',', 'b']] := by decide
    have hf1 : awkFields ['1', '.', '0', ',', '1'] = [['1', '.', '0'], ['1']] := by decide
    have hf2 : awkFields ['a', ',', 'b'] = [['a'], ['b']] := by decide
    unfold selectScript
    rw [hr]
    simp [Select.record, hf1, hf2, Select.field, awkEq, h1, h2, List.zipIdx, Function.update]
  refine ⟨h, fun hc => ?_⟩
  have := hc ['1'] "1.0,1\na,b\n".toList [["1.0".toList, ['1']], [['a'], ['b']]] 0 ["1.0".toList, ['1']] [[['a'], ['b']]] 1
    ⟨by decide, Or.inl (by decide)⟩ ⟨rfl, by simp⟩ rfl (by
      intro j hj
      match j, hj with
      | 0, hj => exact absurd hj (by decide)
      | 1, _ => rfl
      | j + 2, hj => exact absurd hj (by simp))
  rw [h] at this
  exact absurd (congrArg Prod.fst this) (by decide)

/-- What `hide_values.awk` prints, exactly: the lines as they should be, but with a comma too many at the end of each line in which the last column is dropped and another is
kept. -/
theorem C98_hide_exactly (prob : List Char → ℤ) (random : Nat → Nat) (text : List Char) (lines : List (List (List Char))) (above : Nat) (header : List (List Char))
    (below : List (List (List Char))) (ht : TextOf lines text) (hh : HasHeader lines above header below) :
    hideScript prob random text = List.replicate above '\n' ++ hideLine prob header (fun _ f => shownName prob f) header ++ hideBelow prob header random 0 below :=
  hide_script ht hh

theorem hideLine_good {prob : List Char → ℤ} {header l : List (List Char)} (h : LastKept prob header l) (shown : Nat → List Char → List Char) :
    hideLine prob header shown l = lineText (keptFields prob header shown l) := by
  unfold hideLine
  rw [if_neg, List.append_nil]
  · rfl
  rintro ⟨h0, h1, _⟩
  exact absurd (h h0) (not_le.2 h1)

/-- `hide_values.awk` prints what it should if the last column of each line is kept.  Missing: a last column that is dropped; there it is false (`C98_comma_refuted`). -/
theorem C98_hide_partial (prob : List Char → ℤ) (random : Nat → Nat) (text : List Char) (lines : List (List (List Char))) (above : Nat) (header : List (List Char))
    (below : List (List (List Char))) (ht : TextOf lines text) (hh : HasHeader lines above header below) (hlast : ∀ l ∈ header :: below, LastKept prob header l) :
    hideScript prob random text = linesText (hiddenFile prob random above header below) := by
  rw [C98_hide_exactly prob random text lines above header below ht hh, hideLine_good (hlast header (by simp))]
  have hb : ∀ (ls : List (List (List Char))) (n : Nat), (∀ l ∈ ls, LastKept prob header l) → hideBelow prob header random n ls = linesText (shownLines prob header random n ls) := by
    intro ls
    induction ls with
    | nil => intro n _; rfl
    | cons l ls ih =>
      intro n h
      rw [hideBelow, shownLines, hideLine_good (h l (by simp)), ih _ (fun x hx => h x (by simp [hx]))]
      rfl
  rw [hb below 0 (fun x hx => hlast x (by simp [hx]))]
  unfold hiddenFile linesText
  rw [List.flatMap_append, replicate_lines lineText rfl, List.flatMap_cons, List.append_assoc]

/-- A last column that is dropped: a comma is left over, here with the table of the script. -/
theorem C98_comma_refuted : (∀ random : Nat → Nat, (∀ i, random i < 100) → hideScript hideTable random "A1,B0\nyes,no\n".toList = "A1,\nyes,\n".toList) ∧ ¬ C98_hide_full := by
  have ht : TextOf [["A1".toList, "B0".toList], ["yes".toList, "no".toList]] "A1,B0\nyes,no\n".toList := ⟨by decide, Or.inl (by decide)⟩
  have key : ∀ random : Nat → Nat, (∀ i, random i < 100) → hideScript hideTable random "A1,B0\nyes,no\n".toList = "A1,\nyes,\n".toList := by
    intro random hr
    rw [C98_hide_exactly hideTable random _ _ 0 ["A1".toList, "B0".toList] [["yes".toList, "no".toList]] ht ⟨rfl, by simp⟩]
    have h3 : ((random 0 : Nat) : ℤ) < 100 := by exact_mod_cast hr 0
    have hk : ∀ (shown : Nat → List Char → List Char) (a b : List Char), hideLine hideTable ["A1".toList, "B0".toList] shown [a, b] = shown 0 a ++ [',', '\n'] := by
      intro shown a b
      have : keptFields hideTable ["A1".toList, "B0".toList] shown [a, b] = [shown 0 a] := rfl
      unfold hideLine
      rw [this]
      change recordText [shown 0 a] ++ _ ++ _ = _
      rw [recordText_one, if_pos ⟨by simp, show hideTable "B0".toList < 0 by decide, by simp⟩, List.append_assoc]
      rfl
    have hv : shownValue (hideTable "A1".toList) (random 0) "yes".toList = "yes".toList := by
      unfold shownValue
      exact if_pos (Or.inr h3)
    rw [hideBelow, hideBelow, hk, hk]
    change _ ++ (_ ++ _) ++ (shownValue (hideTable "A1".toList) (random 0) "yes".toList ++ _ ++ []) = _
    rw [hv]
    decide
  refine ⟨key, fun h => ?_⟩
  have := h hideTable (fun _ => 0) _ _ 0 ["A1".toList, "B0".toList] [["yes".toList, "no".toList]] ht ⟨rfl, by simp⟩
  rw [key _ (by simp)] at this
  exact absurd this (by decide)

/-- All percentages are 100 (also that of the empty name, which fields without a name have), and the random numbers are less than 100: the file is printed as it is. -/
theorem C98_hundred (prob : List Char → ℤ) (random : Nat → Nat) (text : List Char) (lines : List (List (List Char))) (above : Nat) (header : List (List Char))
    (below : List (List (List Char))) (ht : TextOf lines text) (hh : HasHeader lines above header below) (hp : ∀ n, prob n = 100) (hr : ∀ i, random i < 100) :
    hideScript prob random text = linesText lines := by
  rw [C98_hide_partial prob random text lines above header below ht hh (fun l _ _ => by rw [hp]; decide), hh.1]
  have hk : ∀ (shown : Nat → List Char → List Char) (l : List (List Char)), (∀ j f, shown j f = f) → keptFields prob header shown l = l := by
    intro shown l hs
    unfold keptFields
    simp [hp, hs]
  unfold hiddenFile
  rw [hk _ _ (fun _ f => by unfold shownName; rw [hp, if_neg (by decide)])]
  have hb : ∀ (ls : List (List (List Char))) (n : Nat), shownLines prob header random n ls = ls := by
    intro ls
    induction ls with
    | nil => intro n; rfl
    | cons l ls ih =>
      intro n
      rw [shownLines, ih, hk]
      intro j f
      unfold shownValue
      rw [hp, if_pos]
      right
      exact_mod_cast hr (n + j)
  rw [hb]

/-- A file in which all lines are empty is printed as it is. -/
theorem C98_empty (num : List Char → Option ℚ) (var : List Char) (prob : List Char → ℤ) (random : Nat → Nat) (n : Nat) :
    selectScript num var (List.replicate n '\n') = (List.replicate n '\n', [], 0) ∧ hideScript prob random (List.replicate n '\n') = List.replicate n '\n' := by
  have ht : TextOf (List.replicate n []) (List.replicate n '\n') := by
    refine ⟨fun l hl => ?_, Or.inl ?_⟩
    · rw [List.eq_of_mem_replicate hl]; decide
    · unfold linesText
      rw [replicate_lines lineText rfl]
  unfold selectScript hideScript
  rw [awkRecords_text ht, Select.empties _ _ _ _ rfl, Hide.empties]
  simp

/-- So all three claims are false: the first if there are two texts that are the same number (as in awk), the others in any case. -/
theorem C98_refuted (num : List Char → Option ℚ) (h1 : num ['1'] = some 1) (h2 : num ['1', '.', '0'] = some 1) (h3 : num ['X'] = none) :
    ¬ C98_select_full num ∧ ¬ C98_missing_full num ∧ ¬ C98_hide_full := by
  refine ⟨(C98_number_refuted num h1 h2).2, fun h => ?_, C98_comma_refuted.2⟩
  have ht : TextOf [[['A'], ['B']]] "A,B\n".toList := ⟨by decide, Or.inl (by decide)⟩
  obtain ⟨out, err, e, _⟩ := h ['X'] "A,B\n".toList _ 0 [['A'], ['B']] [] ht ⟨rfl, by simp⟩ (by decide)
  rw [C98_header_only_refuted num ['X'] _ _ 0 0 _ ht ⟨rfl, by simp⟩ (by decide) h3] at e
  simp at e

/-- a data file with an empty line and a line that is too short -/
def someData : List (List (List Char)) := [["A1".toList, "B1".toList, "Y1".toList], ["a".toList, "b".toList, "c".toList], [], ["d".toList, "e".toList]]

theorem someData_text : TextOf someData "A1,B1,Y1\na,b,c\n\nd,e".toList := ⟨by decide, Or.inr ⟨by decide, by decide⟩⟩

theorem someData_header : HasHeader someData 0 ["A1".toList, "B1".toList, "Y1".toList] [["a".toList, "b".toList, "c".toList], [], ["d".toList, "e".toList]] := ⟨rfl, by simp⟩

/-- which texts are numbers: enough for the examples -/
def fewNumbers (t : List Char) : Option ℚ := if t = ['1'] ∨ t = ['1', '.', '0'] then some 1 else none

/-- The hypotheses can be met. -/
example : selectScript fewNumbers "B1".toList "A1,B1,Y1\na,b,c\n\nd,e".toList = ("B1\nb\n\ne\n".toList, [], 0) := by
  have := C98_select_partial fewNumbers "B1".toList _ _ 0 _ _ 1 someData_text someData_header rfl (by
    intro j hj
    match j, hj with
    | 0, hj => exact absurd hj (by decide)
    | 1, _ => rfl
    | 2, hj => exact absurd hj (by decide)
    | j + 3, hj => exact absurd hj (by simp)) (by decide) (Or.inl (by decide))
  rw [this]
  decide

example : selectScript fewNumbers "Z".toList "A1,B1,Y1\na,b,c\n\nd,e".toList = ("\n".toList, "select.awk: Variable Z not found!\n".toList, 1) := by
  have := C98_missing_partial fewNumbers "Z".toList _ _ 0 0 _ _ [[], ["d".toList, "e".toList]] someData_text someData_header (by decide) (by decide) (by decide)
  rw [this]
  decide

/-- some percentages -/
def fewPercentages (n : List Char) : ℤ := if n = "A1".toList then -1 else if n = "B1".toList then 80 else 0

example : hideScript fewPercentages (fun i => if i = 1 then 79 else 80) "A1,B1,Y1\na,b,c\n\nd,e".toList = "B1,hidden_Y1\nb,c\n\nnull\n".toList := by
  rw [C98_hide_partial fewPercentages _ _ _ 0 _ _ someData_text someData_header (by
    intro l hl
    simp only [List.mem_cons, List.not_mem_nil, or_false] at hl
    rcases hl with rfl | rfl | rfl | rfl <;> intro _ <;> first | decide | contradiction)]
  decide

example : hideScript (fun _ => 100) (fun i => i % 100) "A1,B1,Y1\na,b,c\n\nd,e".toList = linesText someData :=
  C98_hundred _ _ _ _ 0 _ _ someData_text someData_header (fun _ => rfl) (fun i => Nat.mod_lt i (by decide))

example : ∃ num : List Char → Option ℚ, num ['1'] = some 1 ∧ num ['1', '.', '0'] = some 1 ∧ num ['X'] = none := ⟨fewNumbers, by decide, by decide, by decide⟩

end Nip.Props
