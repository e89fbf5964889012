import Mathlib.Tactic.FinCases
import Mathlib.Tactic.NormNum
import Verif.HuginLexLemmas

/-! # The lexemes of a layout -/

namespace Nip

open Res Spec

/-- characters of words -/
def plainChar (c : Char) : Bool := !isSpace c && !isMark c && c != '"'

theorem gap_char {c : Char} (h : whitespace c = true) : isSpace c = true ∧ isMark c = false ∧ c ≠ '"' := by
  rw [← whitespace_eq]
  refine ⟨h, ?_⟩
  have : c ∈ [' ', '\t', '\n', Char.ofNat 11, Char.ofNat 12, '\r'] := by simpa [whitespace] using h
  fin_cases this <;> decide

theorem scan_gap (g r : List Char) (h : ∀ c ∈ g, whitespace c = true) : scanWords 0 [] false (g ++ r) = scanWords 0 [] false r := by
  induction g with
  | nil => rfl
  | cons c g ih =>
    have hc := gap_char (h c (by simp))
    rw [List.cons_append, scanWords]
    simp [hc.1, hc.2.1, hc.2.2, ih (fun d hd => h d (by simp [hd]))]

theorem scan_more (w cur r : List Char) (h : ∀ c ∈ w, plainChar c = true) :
    scanWords 1 cur false (w ++ r) = scanWords 1 (cur ++ w) false r := by
  induction w generalizing cur with
  | nil => simp
  | cons c w ih =>
    have hc := h c (by simp)
    simp only [plainChar, Bool.and_eq_true, Bool.not_eq_true', bne_iff_ne] at hc
    rw [List.cons_append, scanWords]
    simp [hc.1.1, hc.1.2, hc.2, ih (cur ++ [c]) (fun d hd => h d (by simp [hd]))]

theorem scan_word (w r : List Char) (hw : w ≠ []) (h : ∀ c ∈ w, plainChar c = true) :
    scanWords 0 [] false (w ++ r) = scanWords 1 w false r := by
  cases w with
  | nil => exact absurd rfl hw
  | cons c w =>
    have hc := h c (by simp)
    simp only [plainChar, Bool.and_eq_true, Bool.not_eq_true', bne_iff_ne] at hc
    rw [List.cons_append, scanWords]
    simp [hc.1.1, hc.1.2, hc.2]
    rw [scan_more w [c] r (fun d hd => h d (by simp [hd]))]
    rfl

/-- the end of a word -/
def EndsWord : List Char → Prop
  | [] => True
  | c :: r => isSpace c = true ∨ isMark c = true ∨ (c = '"' ∧ r.any (fun d => d == '"') = true)

theorem scan_end (w r : List Char) (h : EndsWord r) : scanWords 1 w false r = w :: scanWords 0 [] false r := by
  cases r with
  | nil => rfl
  | cons c r =>
    rw [scanWords, scanWords]
    by_cases hm : isMark c = true
    · simp [hm]
    · have hm : isMark c = false := by simpa using hm
      by_cases hq : c = '"'
      · have : isSpace c = false := by subst hq; decide
        rcases h with h | h | h
        · rw [this] at h; cases h
        · rw [hm] at h; cases h
        · have h2 := h.2
          simp only [List.any_eq_true, beq_iff_eq, exists_eq_right] at h2
          have hm' : isMark '"' = false := by decide
          simp [hm', hq, h2]
      · rcases h with h | h | h
        · simp [hm, hq, h]
        · rw [hm] at h; cases h
        · exact absurd h.1 hq

theorem scan_mark (found : Bool) (c : Char) (r : List Char) (h : isMark c = true) :
    scanWords 0 [] found (c :: r) = [c] :: scanWords 0 [] false r := by
  rw [scanWords]; simp [h]

theorem scan_inside (w cur r : List Char) (found : Bool) (h : '"' ∉ w ∧ '\n' ∉ w) :
    scanWords 2 cur found (w ++ '"' :: r) = (cur ++ w ++ ['"']) :: scanWords 0 [] (found || w.any isMark) r := by
  induction w generalizing cur found with
  | nil =>
    rw [List.nil_append, scanWords]
    have : isMark '"' = false := by decide
    simp [this]
  | cons c w ih =>
    have h1 : c ≠ '"' := by rintro rfl; exact h.1 (by simp)
    have h2 : c ≠ '\n' := by rintro rfl; exact h.2 (by simp)
    rw [List.cons_append, scanWords]
    simp only [h1, h2]
    simp
    rw [ih _ _ ⟨fun hc => h.1 (by simp [hc]), fun hc => h.2 (by simp [hc])⟩]
    simp [Bool.or_assoc]

theorem scan_text (w r : List Char) (h : '"' ∉ w ∧ '\n' ∉ w) :
    scanWords 0 [] false ('"' :: w ++ '"' :: r) = ('"' :: w ++ ['"']) :: scanWords 0 [] (w.any isMark) r := by
  rw [List.cons_append, scanWords]
  have : isMark '"' = false := by decide
  simp [this]
  rw [scan_inside w _ r false h]
  simp

theorem scan_begun (cur r : List Char) : ∃ v t, scanWords 1 cur false r = (cur ++ v) :: t := by
  induction r generalizing cur with
  | nil => exact ⟨[], [], by simp [scanWords]⟩
  | cons c r ih =>
    rw [scanWords]
    simp only [Bool.false_or]
    split_ifs with h1 h2 h3 h4 h5 h6 h7
    all_goals first
      | exact ⟨[], _, by rw [List.append_nil]; rfl⟩
      | (obtain ⟨v, t, h⟩ := ih (cur ++ [c]); exact ⟨c :: v, t, by simpa using h⟩)
      | simp_all

theorem scan_comment (w : List Char) : (scanWords 0 [] false ('%' :: w)).takeWhile (fun w => !beginsComment w) = [] := by
  have h := scan_word ['%'] w (by simp) (by intro c hc; simp at hc; subst hc; decide)
  rw [List.singleton_append] at h
  obtain ⟨v, t, h2⟩ := scan_begun ['%'] w
  rw [h, h2]
  rfl

theorem inName_plain {c : Char} (h : inName c = true) : plainChar c = true ∧ c ≠ '%' := by
  constructor
  · unfold plainChar
    simp only [Bool.and_eq_true, Bool.not_eq_true', bne_iff_ne]
    refine ⟨⟨?_, ?_⟩, ?_⟩
    · by_contra hc
      have hc : whitespace c = true := by rw [whitespace_eq]; simpa using hc
      have : c ∈ [' ', '\t', '\n', Char.ofNat 11, Char.ofNat 12, '\r'] := by simpa [whitespace] using hc
      fin_cases this <;> exact absurd h (by decide)
    · by_contra hc
      have hc : isMark c = true := by simpa using hc
      rw [isMark_eq] at hc
      have : c ∈ ['(', ')', '{', '}', '=', ',', ';'] := by simpa [separators] using hc
      fin_cases this <;> exact absurd h (by decide)
    · rintro rfl; exact absurd h (by decide)
  · rintro rfl; exact absurd h (by decide)

theorem number_char {w : List Char} (h : IsNumber w) : w ≠ [] ∧ ∀ c ∈ w, inName c = true ∨ c = '+' := by
  obtain ⟨sign, whole, fraction, exponent, rfl, hs, hw, hf, he⟩ := h
  have dig : ∀ c : Char, c.isDigit = true → inName c = true := by
    intro c hc; unfold inName; simp [Char.isAlphanum, hc]
  have hsign : ∀ s, Sign s → ∀ c ∈ s, inName c = true ∨ c = '+' := by
    rintro s (rfl | rfl | rfl) c hc
    · simp at hc
    · simp at hc; subst hc; left; decide
    · simp at hc; subst hc; right; rfl
  constructor
  · rcases hf with ⟨h1, _⟩ | ⟨d, h1, _, _⟩
    · simp [h1]
    · simp [h1]
  · intro c hc
    simp only [List.mem_append] at hc
    rcases hc with ((hc | hc) | hc) | hc
    · exact hsign _ hs c hc
    · exact Or.inl (dig c (hw c hc))
    · rcases hf with ⟨_, h1⟩ | ⟨d, h1, h2, _⟩
      · simp [h1] at hc
      · rw [h1] at hc
        rcases List.mem_cons.mp hc with rfl | hc
        · left; decide
        · exact Or.inl (dig c (h2 c hc))
    · rcases he with h1 | ⟨e, s, d, h1, h2, h3, h4, _⟩
      · simp [h1] at hc
      · rw [h1] at hc
        rcases List.mem_append.mp hc with hc | hc
        · rcases List.mem_cons.mp hc with rfl | hc
          · left; rcases h2 with rfl | rfl <;> decide
          · exact hsign _ h3 c hc
        · exact Or.inl (dig c (h4 c hc))

/-- words -/
theorem word_plain {a : Lexeme} (h : a.Legal) (hc : a.closed = false) :
    a.spell ≠ [] ∧ ∀ c ∈ a.spell, plainChar c = true ∧ c ≠ '%' := by
  cases a with
  | key k => cases k <;> decide
  | name w =>
    obtain ⟨⟨⟨c, r, rfl, h1, h2⟩, _⟩, _⟩ := h
    refine ⟨by simp [Lexeme.spell], fun d hd => inName_plain ?_⟩
    rcases List.mem_cons.mp hd with rfl | hd
    · unfold inName; simp [Char.isAlphanum, h1]
    · exact h2 d hd
  | number w =>
    have := number_char h
    refine ⟨this.1, fun c hc => ?_⟩
    rcases this.2 c hc with h | rfl
    · exact inName_plain h
    · decide
  | text w => cases hc
  | mark c =>
    rcases h with h | rfl
    · unfold Lexeme.closed at hc
      simp at hc
      exact absurd h hc
    · decide

/-- the rest of a line -/
def lineRest (items : List (Lexeme × List Char)) (comment : Option (List Char)) : List Char :=
  items.flatMap (fun p => p.1.spell ++ p.2) ++ ((match comment with | none => [] | some w => '%' :: w) ++ ['\n'])

theorem lineRest_cons (a : Lexeme) (g : List Char) (items : List (Lexeme × List Char)) (comment : Option (List Char)) :
    lineRest ((a, g) :: items) comment = a.spell ++ (g ++ lineRest items comment) := by
  unfold lineRest; simp

theorem closed_ends {b : Lexeme} (h : b.Legal) (hc : b.closed = true) (r : List Char) : EndsWord (b.spell ++ r) := by
  cases b with
  | text w =>
    right; right
    exact ⟨rfl, by simp⟩
  | mark c =>
    right; left
    rw [isMark_eq]; exact hc
  | key k => cases hc
  | name w => cases hc
  | number w => cases hc

theorem separator_found {b : Lexeme} (h : b.isSeparator = true) (found : Bool) (r : List Char) :
    scanWords 0 [] found (b.spell ++ r) = scanWords 0 [] false (b.spell ++ r) := by
  cases b with
  | mark c =>
    have : isMark c = true := by rw [isMark_eq]; exact h
    show scanWords 0 [] found (c :: r) = scanWords 0 [] false (c :: r)
    rw [scan_mark _ c r this, scan_mark _ c r this]
  | text w => cases h
  | key k => cases h
  | name w => cases h
  | number w => cases h

theorem hides_eq (w : List Char) : (Lexeme.text w).hides = w.any isMark := by
  unfold Lexeme.hides
  rw [show isMark = separators.contains from funext isMark_eq]

theorem line_scan (comment : Option (List Char)) (items : List (Lexeme × List Char))
    (hi : ∀ p ∈ items, p.1.Legal ∧ Gap p.2) (hn : Neighbours comment.isSome items) :
    (scanWords 0 [] false (lineRest items comment)).takeWhile (fun w => !beginsComment w) = items.map (fun p => p.1.spell) := by
  induction items with
  | nil =>
    unfold lineRest
    cases comment with
    | none => decide
    | some w => exact scan_comment (w ++ ['\n'])
  | cons p rest ih =>
    obtain ⟨a, g⟩ := p
    have ha := hi (a, g) (by simp)
    have hg : ∀ c ∈ g, whitespace c = true := fun c hc => (ha.2 c hc).1
    have hn' : Neighbours comment.isSome rest := by
      cases rest with
      | nil => trivial
      | cons q r => obtain ⟨b, h⟩ := q; exact hn.2.2
    have ih := ih (fun p hp => hi p (by simp [hp])) hn'
    rw [lineRest_cons, List.map_cons]
    have hgap : (scanWords 0 [] false (g ++ lineRest rest comment)).takeWhile (fun w => !beginsComment w) = rest.map (fun p => p.1.spell) := by
      rw [scan_gap g _ hg, ih]
    by_cases hc : a.closed = true
    · cases a with
      | key k => cases hc
      | name w => cases hc
      | number w => cases hc
      | mark c =>
        have hm : isMark c = true := by rw [isMark_eq]; exact hc
        have hp : (c == '%') = false := by
          by_contra hp
          have : c = '%' := by simpa using hp
          subst this
          exact absurd hm (by decide)
        show List.takeWhile _ (scanWords 0 [] false (c :: (g ++ lineRest rest comment))) = _
        rw [scan_mark false c _ hm, List.takeWhile_cons]
        have : beginsComment [c] = false := hp
        rw [this, hgap]
        rfl
      | text w =>
        show List.takeWhile _ (scanWords 0 [] false (('"' :: w ++ ['"']) ++ (g ++ lineRest rest comment))) = _
        rw [show ('"' :: w ++ ['"']) ++ (g ++ lineRest rest comment) = '"' :: w ++ '"' :: (g ++ lineRest rest comment) by simp,
          scan_text w _ ha.1, List.takeWhile_cons]
        have hb : beginsComment ('"' :: w ++ ['"']) = false := rfl
        rw [hb]
        have hf : scanWords 0 [] (w.any isMark) (g ++ lineRest rest comment) = scanWords 0 [] false (g ++ lineRest rest comment) := by
          by_cases hh : w.any isMark = true
          · rw [← hides_eq] at hh
            cases rest with
            | nil =>
              have := hn.2
              rw [hh] at this
              cases this
            | cons q r =>
              obtain ⟨b, h⟩ := q
              obtain ⟨hg0, hb⟩ := hn.2.1 hh
              rw [hg0, List.nil_append, lineRest_cons, separator_found hb]
          · have hh : w.any isMark = false := by simpa using hh
            rw [hh]
        rw [hf, hgap]
        rfl
    · have hc : a.closed = false := by simpa using hc
      obtain ⟨h1, h2⟩ := word_plain ha.1 hc
      rw [scan_word a.spell _ h1 (fun c hc => (h2 c hc).1), scan_end, List.takeWhile_cons]
      · have : beginsComment a.spell = false := by
          unfold beginsComment
          cases hs : a.spell with
          | nil => rfl
          | cons c r =>
            have := (h2 c (by rw [hs]; simp)).2
            simp [this]
        rw [this, hgap]
        rfl
      · cases hg0 : g with
        | cons c g' =>
          left
          rw [← whitespace_eq]
          exact hg c (by rw [hg0]; simp)
        | nil =>
          rw [List.nil_append]
          cases rest with
          | nil =>
            cases comment with
            | none => left; decide
            | some w =>
              have := hn.1 rfl
              rw [hg0, hc] at this
              simp at this
          | cons q r =>
            obtain ⟨b, h⟩ := q
            rw [lineRest_cons]
            have := hn.1
            rw [hg0, hc] at this
            exact closed_ends (hi (b, h) (by simp)).1 (by simpa using this) _

theorem line_words {l : Line} (h : l.Legal) : lineWords (l.text ++ ['\n']) = l.items.map (fun p => p.1.spell) := by
  rw [← line_scan l.comment l.items h.items h.neighbours, lineWords]
  have : l.text ++ ['\n'] = l.lead ++ lineRest l.items l.comment := by
    unfold Line.text lineRest
    simp only [List.append_assoc]
    cases l.comment <;> rfl
  rw [this, scan_gap l.lead _ (fun c hc => (h.lead c hc).1)]

/-! ## Kinds of words -/

theorem keywordOf_spell {w : List Char} {k : Keyword} (h : keywordOf w = some k) : w = k.spell := by
  have table : ∀ q ∈ keywordTable, q.1 = q.2.spell := by decide
  unfold keywordOf at h
  rw [List.lookup_eq_some_iff] at h
  obtain ⟨l1, l2, h1, _⟩ := h
  exact table (w, k) (by rw [h1]; simp)

theorem keywordOf_first {c : Char} {r : List Char} (h : c.isAlpha = false) : keywordOf (c :: r) = none := by
  by_contra hk
  obtain ⟨k, hk⟩ := Option.ne_none_iff_exists'.mp hk
  have first : ∀ k : Keyword, ∃ a r, k.spell = a :: r ∧ a.isAlpha = true := by
    intro k
    cases k <;> exact ⟨_, _, rfl, by decide⟩
  obtain ⟨a, r', h1, h2⟩ := first k
  have := (keywordOf_spell hk).trans h1
  rw [List.cons.injEq] at this
  rw [this.1, h2] at h
  cases h

theorem alpha_facts {c : Char} (h : c.isAlpha = true) : c ≠ '"' ∧ c ≠ '-' ∧ c ≠ '+' ∧ c ≠ '.' ∧ c.isDigit = false := by
  refine ⟨?_, ?_, ?_, ?_, ?_⟩
  · rintro rfl; exact absurd h (by decide)
  · rintro rfl; exact absurd h (by decide)
  · rintro rfl; exact absurd h (by decide)
  · rintro rfl; exact absurd h (by decide)
  · by_contra hd
    have hd : c.isDigit = true := by simpa using hd
    simp only [Char.isAlpha, Char.isUpper, Char.isLower, Char.isDigit, Bool.or_eq_true, Bool.and_eq_true, decide_eq_true_eq] at h hd
    simp only [UInt32.le_iff_toNat_le, ge_iff_le] at h hd
    have e1 : ('A' : Char).val.toNat = 65 := rfl
    have e2 : ('Z' : Char).val.toNat = 90 := rfl
    have e3 : ('a' : Char).val.toNat = 97 := rfl
    have e4 : ('z' : Char).val.toNat = 122 := rfl
    have e5 : ('0' : Char).val.toNat = 48 := rfl
    have e6 : ('9' : Char).val.toNat = 57 := rfl
    omega

theorem digit_facts {c : Char} (h : c.isDigit = true) : c ≠ '"' ∧ c ≠ '-' ∧ c ≠ '+' ∧ c ≠ '.' ∧ c.isAlpha = false := by
  refine ⟨?_, ?_, ?_, ?_, ?_⟩
  · rintro rfl; exact absurd h (by decide)
  · rintro rfl; exact absurd h (by decide)
  · rintro rfl; exact absurd h (by decide)
  · rintro rfl; exact absurd h (by decide)
  · by_contra hd
    have := alpha_facts (c := c) (by simpa using hd)
    rw [this.2.2.2.2] at h
    cases h

theorem dropSign_other {a : Char} (r : List Char) (h1 : a ≠ '-') (h2 : a ≠ '+') : dropSign (a :: r) = a :: r := by
  unfold dropSign
  split
  · rename_i h; cases h; exact absurd rfl h1
  · rename_i h; cases h; exact absurd rfl h2
  · rfl

theorem begins_digit {a : Char} (r : List Char) (h : a.isDigit = true) : beginsNumber (a :: r) = true := by
  have hd := digit_facts h
  match r with
  | [] => simp [beginsNumber, h]
  | [b] => simp [beginsNumber, h, hd]
  | b :: c :: r => simp [beginsNumber, h, hd]

theorem begins_name {w : List Char} (h : IsName w) (hs : ¬ LooksSpecial w) : strtodFinds w = false := by
  obtain ⟨⟨a, r, rfl, h1, _⟩, _⟩ := h
  have ha := alpha_facts h1
  unfold strtodFinds
  rw [dropSign_other r ha.2.1 ha.2.2.1]
  match r with
  | [] => simp [beginsNumber, ha]
  | [b] => simp [beginsNumber, ha]
  | b :: c :: r =>
    have hi : ¬ ([a, b, c].map Char.toLower = "inf".toList) := fun hh => hs ⟨[a, b, c], r, rfl, Or.inl hh⟩
    have hn : ¬ ([a, b, c].map Char.toLower = "nan".toList) := fun hh => hs ⟨[a, b, c], r, rfl, Or.inr hh⟩
    have h0 : beginsNumber (a :: b :: c :: r) =
        (a.isDigit || [a, b, c].map Char.toLower == "inf".toList || [a, b, c].map Char.toLower == "nan".toList) := by
      unfold beginsNumber
      split
      · rename_i h; cases h; exact absurd rfl ha.2.2.2.1
      · rename_i h; cases h; rfl
      · rename_i h3 h; cases h; exact (h3 _ _ _ rfl).elim
      · rename_i h; cases h
    rw [h0, ha.2.2.2.2, beq_eq_false_iff_ne.mpr hi, beq_eq_false_iff_ne.mpr hn]
    rfl

theorem strtod_number {w : List Char} (h : IsNumber w) : strtodFinds w = true := by
  obtain ⟨sign, whole, fraction, exponent, rfl, hs, hw, hf, he⟩ := h
  have key : beginsNumber (whole ++ fraction ++ exponent) = true ∧
      dropSign (whole ++ fraction ++ exponent) = whole ++ fraction ++ exponent := by
    cases whole with
    | cons a r =>
      have ha := hw a (by simp)
      have := digit_facts ha
      rw [List.append_assoc, List.cons_append]
      exact ⟨begins_digit _ ha, dropSign_other _ this.2.1 this.2.2.1⟩
    | nil =>
      rcases hf with ⟨h1, _⟩ | ⟨d, h1, h2, h3⟩
      · exact absurd rfl h1
      · cases d with
        | nil => simp at h3
        | cons d ds =>
          subst h1
          exact ⟨h2 d (by simp), rfl⟩
  unfold strtodFinds
  rcases hs with rfl | rfl | rfl
  · rw [List.nil_append, key.2]; exact key.1
  · rw [List.append_assoc, List.append_assoc, List.singleton_append, ← List.append_assoc]; exact key.1
  · rw [List.append_assoc, List.append_assoc, List.singleton_append, ← List.append_assoc]; exact key.1

theorem number_first {w : List Char} (h : IsNumber w) : ∃ c r, w = c :: r ∧ c.isAlpha = false ∧ c ≠ '"' ∧ (r = [] → c.isDigit = true) := by
  obtain ⟨sign, whole, fraction, exponent, rfl, hs, hw, hf, he⟩ := h
  have key : ∃ c r, whole ++ fraction ++ exponent = c :: r ∧ c.isAlpha = false ∧ c ≠ '"' ∧ (r = [] → c.isDigit = true) := by
    cases whole with
    | cons a r =>
      have ha := digit_facts (hw a (by simp))
      exact ⟨a, r ++ fraction ++ exponent, by simp, ha.2.2.2.2, ha.1, fun _ => hw a (by simp)⟩
    | nil =>
      rcases hf with ⟨h1, _⟩ | ⟨d, h1, h2, h3⟩
      · exact absurd rfl h1
      · cases d with
        | nil => simp at h3
        | cons d ds => exact ⟨'.', d :: ds ++ exponent, by simp [h1], by decide, by decide, by simp⟩
  obtain ⟨c, r, h1, h2⟩ := key
  rcases hs with rfl | rfl | rfl
  · exact ⟨c, r, by simpa using h1, h2⟩
  · refine ⟨'-', c :: r, ?_, by decide, by decide, by simp⟩
    rw [← h1]; simp
  · refine ⟨'+', c :: r, ?_, by decide, by decide, by simp⟩
    rw [← h1]; simp

theorem classify_long {w : List Char} (h : ∀ c, w ≠ [c]) : classify w = match keywordOf w with
    | some k => .key k
    | none =>
      if w.head? = some '"' ∧ w.getLast? = some '"' then .text w.tail.dropLast
      else if strtodFinds w then .number w
      else .name w := by
  match w with
  | [] => rfl
  | [c] => exact absurd rfl (h c)
  | a :: b :: r => rfl

theorem classify_spell {a : Lexeme} (h : a.Legal) : classify a.spell = a := by
  cases a with
  | key k => cases k <;> decide
  | mark c =>
    have : c ∈ ['(', ')', '{', '}', '=', ',', ';', '|'] := by
      rcases h with h | rfl
      · have : c ∈ ['(', ')', '{', '}', '=', ',', ';'] := by simpa [separators] using h
        fin_cases this <;> decide
      · decide
    fin_cases this <;> decide
  | text w =>
    show classify ('"' :: w ++ ['"']) = _
    rw [classify_long (by intro c; simp), List.cons_append, keywordOf_first (by decide)]
    simp only
    rw [if_pos ⟨rfl, by simp [List.getLast?_cons]⟩]
    simp
  | name w =>
    obtain ⟨⟨⟨c, r, rfl, h1, h2⟩, hk⟩, hs⟩ := h
    show classify (c :: r) = _
    cases r with
    | nil => simp [classify, h1]
    | cons d r =>
      rw [classify_long (by intro c'; simp)]
      have : keywordOf (c :: d :: r) = none := by
        by_contra hne
        obtain ⟨k, hne⟩ := Option.ne_none_iff_exists'.mp hne
        exact hk k (keywordOf_spell hne)
      rw [this]
      simp only
      rw [if_neg, begins_name ⟨⟨c, d :: r, rfl, h1, h2⟩, hk⟩ hs]
      · simp
      · rintro ⟨h3, _⟩
        exact (alpha_facts h1).1 (by simpa using h3)
  | number w =>
    have hn : IsNumber w := h
    obtain ⟨c, r, rfl, h1, h2, h3⟩ := number_first hn
    show classify (c :: r) = _
    cases r with
    | nil => simp [classify, h1, h3 rfl]
    | cons d r =>
      rw [classify_long (by intro c'; simp), keywordOf_first h1]
      simp only
      rw [if_neg, strtod_number hn]
      · simp
      · rintro ⟨h3, _⟩
        exact h2 (by simpa using h3)

end Nip
