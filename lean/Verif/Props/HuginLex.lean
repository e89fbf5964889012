import Verif.HuginLayout

/-!
# C67: the lexical analysis of network files
-/

namespace Nip.Props

open Res Spec

/-- **C67**, the claim about a file: calls of `yylex` return what is written, and then the end of the file. -/
def ReadsAs (ls : List Line) : Prop := ∃ st, lexFile LexState.initial (fileText ls) = ok (fileLexemes ls, st)

/-- **C67** in full. -/
def C67_full : Prop := ∀ ls : List Line, (∀ l ∈ ls, l.Proper) → ReadsAs ls

theorem scanWords_count (r : List Char) : ∀ (mode : Nat) (cur : List Char) (found : Bool),
    (scanWords mode cur found r).length ≤ r.length + (if mode = 0 then 0 else 1) := by
  induction r with
  | nil => intro mode cur found; rw [scanWords]; split <;> simp
  | cons c r ih =>
    intro mode cur found
    have h0 := fun f => ih 0 [] f
    have h1 := fun w f => ih 1 w f
    have h2 := fun w f => ih 2 w f
    simp only [if_true, Nat.add_zero] at h0
    simp only [one_ne_zero, if_false] at h1
    simp only [two_ne_zero, if_false] at h2
    rw [scanWords]
    rw [List.length_cons]
    split
    · rw [List.length_append, List.length_cons]
      have := h0 false
      split
      · rename_i h; subst h; simp; omega
      · simp; omega
    · split
      · split
        · rw [List.length_append]
          have := h2 [c] false
          split
          · rename_i h; subst h; simp; omega
          · simp; omega
        · have := ih mode (if mode = 1 then cur ++ [c] else []) false
          omega
      · split
        · split
          · have := h0 false; simp; omega
          · have := h1 [c] false; omega
        · split
          · split
            · have := h0 false; simp; omega
            · have := h1 (cur ++ [c]) false; simp; omega
          · split
            · have := h0 (found || isMark c); simp; omega
            · split
              · have := h0 (found || isMark c); simp; omega
              · have := h2 (cur ++ [c]) (found || isMark c); simp; omega

theorem lineWords_count (l : List Char) : (lineWords l).length ≤ l.length := by
  refine Nat.le_trans (List.IsPrefix.length_le (List.takeWhile_prefix _)) ?_
  simpa using scanWords_count l 0 [] false

theorem words_count (lines : List (List Char)) : (lines.flatMap lineWords).length ≤ lines.flatten.length := by
  induction lines with
  | nil => simp
  | cons l r ih =>
    rw [List.flatMap_cons, List.flatten_cons, List.length_append, List.length_append]
    have := lineWords_count l
    omega

theorem words_file (file : List Char) : ((fileLines file).flatMap lineWords).length ≤ file.length := by
  have := words_count (fileLines file)
  rwa [fileLines, readLines_flatten _ _ (Nat.le_refl _)] at this

/-- What is read from a file, whatever it is. -/
theorem lexFile_eq (file : List Char) (st : LexState) (hr : st.readLine = true) :
    ∃ e, lexFile st file = ok (((fileLines file).flatMap lineWords).map classify, e) ∧ e.readLine = true ∧ e.left = 0 ∧ e.file = [] := by
  have hc := words_file file
  obtain ⟨e, h1, h2, h3, h4⟩ := lexemes_file (fileLines file) (st.open_ file) hr rfl
    (st.left + (file.length - ((fileLines file).flatMap lineWords).length))
  refine ⟨e, ?_, h2, h4, h3⟩
  rw [← h1]
  unfold lexFile
  congr 1
  omega

theorem spell_line {a : Lexeme} (h : a.Legal) : '\n' ∉ a.spell := by
  intro hm
  by_cases hc : a.closed = true
  · cases a with
    | text w =>
      simp only [Lexeme.spell, List.mem_append, List.mem_cons, List.mem_singleton, List.cons_append] at hm
      rcases hm with h1 | h1 | h1
      · exact absurd h1 (by decide)
      · exact h.2 h1
      · rcases h1 with h1 | h1
        · exact absurd h1 (by decide)
        · cases h1
    | mark c =>
      simp only [Lexeme.spell, List.mem_singleton] at hm
      subst hm
      rcases h with h | h
      · exact absurd h (by decide)
      · exact absurd h (by decide)
    | key k => cases hc
    | name w => cases hc
    | number w => cases hc
  · have := ((word_plain h (by simpa using hc)).2 _ hm).1
    exact absurd this (by decide)

theorem line_chars {l : Line} (h : l.Legal) : '\n' ∉ l.text := by
  unfold Line.text
  intro hm
  rw [List.mem_append, List.mem_append] at hm
  rcases hm with (hm | hm) | hm
  · exact (h.lead _ hm).2 rfl
  · obtain ⟨p, hp, hm⟩ := List.mem_flatMap.mp hm
    rcases List.mem_append.mp hm with hm | hm
    · exact spell_line (h.items p hp).1 hm
    · exact ((h.items p hp).2 _ hm).2 rfl
  · cases hc : l.comment with
    | none => rw [hc] at hm; cases hm
    | some w =>
      rw [hc] at hm
      rcases List.mem_cons.mp hm with hm | hm
      · exact absurd hm (by decide)
      · exact h.comment w hc hm

/-- Every file, whatever is in it, is read to its end, nothing is read outside the arrays, and the static variables are then as they were at
the start of the program. -/
theorem C67_safe (file : List Char) (st : LexState) (hr : st.readLine = true) :
    ∃ ts e, lexFile st file = ok (ts, e) ∧ e.readLine = true ∧ e.left = 0 ∧ e.file = [] := by
  obtain ⟨e, h1, h2⟩ := lexFile_eq file st hr
  exact ⟨_, e, h1, h2⟩

/-- Lines that can be written are read as their lexemes, by any lexical analyser that is about to read a line. -/
theorem lexFile_legal {ls : List Line} (h : ∀ l ∈ ls, l.Legal) (st : LexState) (hr : st.readLine = true) :
    ∃ e, lexFile st (fileText ls) = ok (fileLexemes ls, e) ∧ e.readLine = true := by
  obtain ⟨e, h1, h2, _⟩ := lexFile_eq (fileText ls) st hr
  refine ⟨e, ?_, h2⟩
  rw [h1]
  congr 2
  have hl : fileLines (fileText ls) = ls.map (fun l => l.text ++ ['\n']) := by
    have := fileLines_short (ls.map Line.text) (by
      intro t ht
      obtain ⟨l, hl, rfl⟩ := List.mem_map.mp ht
      exact ⟨line_chars (h l hl), (h l hl).short⟩)
    rw [List.map_map] at this
    unfold fileText
    rw [List.flatMap_def]
    exact this
  rw [hl]
  unfold fileLexemes
  clear h1 hl
  induction ls with
  | nil => rfl
  | cons l ls ih =>
    rw [List.map_cons, List.flatMap_cons, List.map_append, List.flatMap_cons, ih (fun l hl => h l (by simp [hl])),
      line_words (h l (by simp)), List.map_map]
    congr 1
    refine List.map_congr_left fun p hp => ?_
    exact classify_spell ((h l (by simp)).items p hp).1

/-- **C67** (partial).  What is missing from the full claim `C67_full`, which is false (see below): names that begin like `inf` or `nan`, the
mark `|` without white space around it, a comment that follows a word without white space, and quoted texts with a separator inside, unless
a separator follows at once. -/
theorem C67_layout_partial {ls : List Line} (h : ∀ l ∈ ls, l.Legal) : ReadsAs ls := by
  obtain ⟨e, h1, _⟩ := lexFile_legal h LexState.initial rfl
  exact ⟨e, h1⟩

/-- a line that consists of the lexemes given, with the given white space after each -/
def lineOf (items : List (Lexeme × String)) : Line := { lead := [], items := items.map (fun p => (p.1, p.2.toList)), comment := none }

def nm (s : String) : Lexeme := .name s.toList

/-- `potential ( Child | Inflation )`: a name that begins like `inf` is taken for a number. -/
def inflationLine : Line := lineOf [(.key .potential, " "), (.mark '(', " "), (nm "Inflation", " "), (.mark ')', "")]

/-- `potential (A|B)`: the bar is taken for a part of the name. -/
def barLine : Line := lineOf [(.key .potential, " "), (.mark '(', ""), (nm "A", ""), (.mark '|', ""), (nm "B", ""), (.mark ')', "")]

/-- `states = ("a,b" "c")`: the blank after a quoted text with a comma inside is taken for a mark. -/
def commaLine : Line := lineOf [(.text "a,b".toList, " "), (.text "c".toList, "")]

/-- `node A%c`: the comment is taken for a part of the name. -/
def commentLine : Line := { lead := [], items := [(.key .node, " ".toList), (nm "Abc", [])], comment := some "c".toList }

/-- the lexemes of a file -/
def lexed (ls : List Line) : Option (List Lexeme) :=
  match lexFile LexState.initial (fileText ls) with
  | ok (ts, _) => some ts
  | ub => none

theorem lexed_of_reads {ls : List Line} (h : ReadsAs ls) : lexed ls = some (fileLexemes ls) := by
  obtain ⟨st, h⟩ := h
  unfold lexed
  rw [h]

theorem isName (c : Char) (r : List Char) (h1 : c.isAlpha = true) (h2 : ∀ d ∈ r, inName d = true) (h3 : keywordOf (c :: r) = none) : IsName (c :: r) := by
  refine ⟨⟨c, r, rfl, h1, h2⟩, ?_⟩
  intro k hk
  rw [hk] at h3
  cases k <;> exact absurd h3 (by decide)

theorem gap (w : List Char) (h : w = [] ∨ w = [' '] ∨ w = ['\t'] ∨ w = [' ', ' ']) : Gap w := by
  rcases h with rfl | rfl | rfl | rfl
  · intro c hc; cases hc
  · intro c hc; rw [List.mem_singleton.mp hc]; decide
  · intro c hc; rw [List.mem_singleton.mp hc]; decide
  · unfold Gap; decide

/-- Four lines as one would expect them, each of which is read in another way. -/
theorem C67_lines : (lexed [inflationLine] = some [.key .potential, .mark '(', .number "Inflation".toList, .mark ')'] ∧
    lexed [barLine] = some [.key .potential, .mark '(', nm "A|B", .mark ')'] ∧
    lexed [commaLine] = some [.text "a,b".toList, .mark ' ', .text "c".toList] ∧
    lexed [commentLine] = some [.key .node, nm "Abc%c"]) ∧
    ∀ l ∈ [inflationLine, barLine, commaLine, commentLine], l.Proper := by
  constructor
  · decide +kernel
  · intro l hl
    simp only [List.mem_cons, List.not_mem_nil, or_false] at hl
    rcases hl with rfl | rfl | rfl | rfl
    · refine ⟨gap _ (by decide), ?_, ?_, (by intro w hw; cases hw), by decide⟩
      · intro p hp
        simp only [inflationLine, lineOf, List.map_cons, List.map_nil, List.mem_cons, List.not_mem_nil, or_false] at hp
        rcases hp with rfl | rfl | rfl | rfl
        · exact ⟨trivial, gap _ (by decide)⟩
        · exact ⟨Or.inl (by decide), gap _ (by decide)⟩
        · exact ⟨isName 'I' "nflation".toList (by decide) (by decide) (by decide), gap _ (by decide)⟩
        · exact ⟨Or.inl (by decide), gap _ (by decide)⟩
      · simp [inflationLine, lineOf, Apart, Lexeme.delimited]
    · refine ⟨gap _ (by decide), ?_, ?_, (by intro w hw; cases hw), by decide⟩
      · intro p hp
        simp only [barLine, lineOf, List.map_cons, List.map_nil, List.mem_cons, List.not_mem_nil, or_false] at hp
        rcases hp with rfl | rfl | rfl | rfl | rfl | rfl
        · exact ⟨trivial, gap _ (by decide)⟩
        · exact ⟨Or.inl (by decide), gap _ (by decide)⟩
        · exact ⟨isName 'A' [] (by decide) (by decide) (by decide), gap _ (by decide)⟩
        · exact ⟨Or.inr rfl, gap _ (by decide)⟩
        · exact ⟨isName 'B' [] (by decide) (by decide) (by decide), gap _ (by decide)⟩
        · exact ⟨Or.inl (by decide), gap _ (by decide)⟩
      · simp [barLine, lineOf, Apart, Lexeme.delimited]
    · refine ⟨gap _ (by decide), ?_, ?_, (by intro w hw; cases hw), by decide⟩
      · intro p hp
        simp only [commaLine, lineOf, List.map_cons, List.map_nil, List.mem_cons, List.not_mem_nil, or_false] at hp
        rcases hp with rfl | rfl
        · exact ⟨⟨by decide, by decide⟩, gap _ (by decide)⟩
        · exact ⟨⟨by decide, by decide⟩, gap _ (by decide)⟩
      · simp [commaLine, lineOf, Apart]
    · refine ⟨gap _ (by decide), ?_, ?_, (by intro w hw; cases hw; decide), by decide⟩
      · intro p hp
        simp only [commentLine, List.mem_cons, List.not_mem_nil, or_false] at hp
        rcases hp with rfl | rfl
        · exact ⟨trivial, gap _ (by decide)⟩
        · exact ⟨isName 'A' "bc".toList (by decide) (by decide) (by decide), gap _ (by decide)⟩
      · simp [commentLine, Apart]

/-- **C67** is false in full: names like `Inflation`, a bar without white space, a quoted text with a comma followed by a blank, and a comment
right after a name are each read in another way. -/
theorem C67_refuted : ¬ C67_full ∧ ∀ l ∈ [inflationLine, barLine, commaLine, commentLine], l.Proper ∧ ¬ ReadsAs [l] := by
  obtain ⟨⟨h1, h2, h3, h4⟩, hp⟩ := C67_lines
  have key : ∀ l ∈ [inflationLine, barLine, commaLine, commentLine], l.Proper ∧ ¬ ReadsAs [l] := by
    intro l hl
    refine ⟨hp l hl, fun h => ?_⟩
    have := lexed_of_reads h
    simp only [List.mem_cons, List.not_mem_nil, or_false] at hl
    rcases hl with rfl | rfl | rfl | rfl
    · rw [h1] at this; exact absurd this (by decide)
    · rw [h2] at this; exact absurd this (by decide)
    · rw [h3] at this; exact absurd this (by decide)
    · rw [h4] at this; exact absurd this (by decide)
  refine ⟨fun h => ?_, key⟩
  exact (key inflationLine (by simp)).2 (h [inflationLine] (by intro l hl; rw [List.mem_singleton.mp hl]; exact hp _ (by simp)))

/-- two lines with a comment, a number and a quoted text -/
def sampleLines : List Line :=
  [{ lead := "  ".toList, items := [(.key .node, " ".toList), (nm "Rain", []), (.mark '{', [])], comment := some " today".toList },
   { lead := [], items := [], comment := some "---".toList },
   { lead := "\t".toList, items := [(.key .label, []), (.mark '=', []), (.text "a (b)".toList, []), (.mark ';', " ".toList), (.number "-1.5e3".toList, [])], comment := none }]

/-- The hypotheses of the partial theorem hold for these lines. -/
example : ReadsAs sampleLines := by
  refine C67_layout_partial ?_
  intro l hl
  simp only [sampleLines, List.mem_cons, List.not_mem_nil, or_false] at hl
  rcases hl with rfl | rfl | rfl
  · refine ⟨gap _ (by decide), ?_, ?_, (by intro w hw; cases hw; decide), by decide⟩
    · intro p hp
      simp only [List.mem_cons, List.not_mem_nil, or_false] at hp
      rcases hp with rfl | rfl | rfl
      · exact ⟨trivial, gap _ (by decide)⟩
      · refine ⟨⟨isName 'R' "ain".toList (by decide) (by decide) (by decide), ?_⟩, gap _ (by decide)⟩
        rintro ⟨p, r, h1, h2⟩
        have h3 : p = "Rai".toList := by
          have hlen : p.length = 3 := by
            rcases h2 with h2 | h2 <;> (have := congrArg List.length h2; simpa using this)
          have := congrArg (List.take 3) h1
          rw [List.take_left' hlen] at this
          rw [← this]; rfl
        subst h3
        revert h2; decide
      · exact ⟨Or.inl (by decide), gap _ (by decide)⟩
    · simp [Neighbours, Lexeme.closed, Lexeme.hides]; decide
  · exact ⟨gap _ (by decide), (by intro p hp; cases hp), trivial, (by intro w hw; cases hw; decide), by decide⟩
  · refine ⟨gap _ (by decide), ?_, ?_, (by intro w hw; cases hw), by decide⟩
    · intro p hp
      simp only [List.mem_cons, List.not_mem_nil, or_false] at hp
      rcases hp with rfl | rfl | rfl | rfl | rfl
      · exact ⟨trivial, gap _ (by decide)⟩
      · exact ⟨Or.inl (by decide), gap _ (by decide)⟩
      · exact ⟨⟨by decide, by decide⟩, gap _ (by decide)⟩
      · exact ⟨Or.inl (by decide), gap _ (by decide)⟩
      · refine ⟨⟨['-'], ['1'], ['.', '5'], ['e', '3'], rfl, by unfold Sign; decide, by unfold Digits; decide, Or.inr ⟨['5'], rfl, by unfold Digits; decide, by decide⟩,
          Or.inr ⟨'e', [], ['3'], rfl, by decide, by unfold Sign; decide, by unfold Digits; decide, by decide⟩⟩, gap _ (by decide)⟩
    · simp [Neighbours, Lexeme.closed, Lexeme.hides, Lexeme.isSeparator]; decide

/-- The text, and what is read. -/
example : fileText sampleLines = "  node Rain{% today\n%---\n\tlabel=\"a (b)\"; -1.5e3\n".toList ∧
    lexed sampleLines = some [.key .node, nm "Rain", .mark '{', .key .label, .mark '=', .text "a (b)".toList, .mark ';', .number "-1.5e3".toList] := by
  decide +kernel

end Nip.Props
