import Verif.DataFileLemmas

/-! # Properties C44 and C45: data files -/

namespace Nip

namespace Props

open Res Spec

/-- a file with a header, blank lines at all places and missing values -/
def demoFile : List Char := "\nA, B\n\nx,y\nx,z\n\n \nq,null\n\n".toList

/-- **C44.**  Every data file is analysed without leaving any array; the number of time series is the number of maximal groups of lines that
are not blank after the header, and the length recorded for each is the number of its lines. -/
theorem C44_series (sep : Char) (header : Bool) (file : List Char) :
    ∃ d, analyseDataFile sep header file = ok (some d) ∧
      d.ndatarows = (series header sep (fileLines file)).length ∧
      d.datarows = (series header sep (fileLines file)).map List.length :=
  ⟨_, analyse_eq header sep file, rfl, rfl⟩

example : analyseDataFile ',' true demoFile = ok (some (.mk 2 [2, 1] 2 ["A".toList, "B".toList]
    [["q".toList, "x".toList], ["z".toList, "y".toList]] 1)) := by decide +kernel

/-- **C44.**  Reading a file line by line loses nothing: the lines read are the file; none is empty and each fits the buffer. -/
theorem C44_lines (file : List Char) :
    (fileLines file).flatten = file ∧ ∀ line ∈ fileLines file, line ≠ [] ∧ line.length < 10000 :=
  ⟨readLines_flatten _ _ le_rfl, fun line h => readLines_mem _ _ line h⟩

/-- **C44.**  Lines of less than 9999 characters are read as they are. -/
theorem C44_short_lines (lines : List (List Char)) (h : ∀ l ∈ lines, '\n' ∉ l ∧ l.length < 9999) :
    fileLines (lines.map (fun l => l ++ ['\n'])).flatten = lines.map (fun l => l ++ ['\n']) :=
  fileLines_short lines h

example : fileLines demoFile = ["\n".toList, "A, B\n".toList, "\n".toList, "x,y\n".toList, "x,z\n".toList, "\n".toList, " \n".toList,
    "q,null\n".toList, "\n".toList] := by decide +kernel

/-- The value returned by `nip_analyse_data_file` is documented as the number of time series; it is one less (unless there is none). -/
theorem C44_returned_value (sep : Char) (header : Bool) (file : List Char) :
    ∃ d, analyseDataFile sep header file = ok (some d) ∧ d.returned = d.ndatarows - 1 :=
  ⟨_, analyse_eq header sep file, rfl⟩

/-- **C45**, the claim about a file and the number of its columns: every column has a list of state names without repetition that contains
exactly the values of the column that are not marked as missing. -/
def StateNames (sep : Char) (header : Bool) (file : List Char) (columns : Nat) : Prop :=
  ∃ d, analyseDataFile sep header file = ok (some d) ∧ d.states.length = columns ∧
    ∀ j names, d.states[j]? = some names → names.Nodup ∧
      ∀ v, v ∈ names ↔ missing v = false ∧ Occurs header sep (fileLines file) j v

/-- **C45** (partial).  This holds for files with a header, with a column for each field of the header, which also gives the names of the
columns.  (A file without any text has no columns.) -/
theorem C45_state_names_partial (sep : Char) (file : List Char) :
    StateNames sep true file
      (match (fileLines file).dropWhile (blankLine sep) with
        | h :: _ => (fields sep h).length
        | [] => 0) ∧
    ∃ d, analyseDataFile sep true file = ok (some d) ∧
      d.symbols = match (fileLines file).dropWhile (blankLine sep) with
        | h :: _ => fields sep h
        | [] => [] := by
  have hh : hdr true sep (fileLines file) = match (fileLines file).dropWhile (blankLine sep) with
      | h :: _ => fields sep h
      | [] => [] := by
    unfold hdr
    rw [if_pos rfl]
    cases (fileLines file).dropWhile (blankLine sep) <;> rfl
  refine ⟨⟨_, analyse_eq true sep file, ?_, ?_⟩, _, analyse_eq true sep file, hh⟩
  · simp only [List.length_map, List.length_range, hh]
    cases (fileLines file).dropWhile (blankLine sep) <;> rfl
  · intro j names hj
    simp only at hj
    rw [List.getElem?_map] at hj
    obtain ⟨k, hk, rfl⟩ := Option.map_eq_some_iff.1 hj
    rw [List.getElem?_eq_some_iff] at hk
    obtain ⟨hlt, hk⟩ := hk
    rw [List.getElem_range] at hk
    subst hk
    exact colNames_spec true sep (fileLines file) j

/-- **C45** is false for files without a header: no column is ever set up, whatever the file contains. -/
theorem C45_headerless_refuted (sep : Char) (file : List Char) :
    ∃ d, analyseDataFile sep false file = ok (some d) ∧ d.symbols = [] ∧ d.states = [] :=
  ⟨_, analyse_eq false sep file, rfl, rfl⟩

/-- **C45** is false: a file with one column and no header. -/
theorem C45_refuted : ¬ StateNames ',' false "x\ny\n".toList 1 := by
  rintro ⟨d, h1, h2, _⟩
  obtain ⟨d', h1', _, h3⟩ := C45_headerless_refuted ',' "x\ny\n".toList
  rw [h1, ok.injEq, Option.some.injEq] at h1'
  subst h1'
  rw [h3] at h2
  cases h2

end Props

end Nip
