import Verif.Spec.HuginNet

/-! # Texts that are laid out piece by piece -/

namespace Nip

open Spec

/-- the characters of lexemes and the white space after them -/
def itemsText (items : List (Lexeme × List Char)) : List Char := items.flatMap (fun p => p.1.spell ++ p.2)

theorem itemsText_append (a b : List (Lexeme × List Char)) : itemsText (a ++ b) = itemsText a ++ itemsText b := List.flatMap_append

/-- The text `out` is a number of lines and the beginning of another one of at most `k` characters, with the lexemes `ts`; anything may follow. -/
def Laid (k : Nat) (out : List Char) (ts : List Lexeme) : Prop :=
  ∃ (ls : List Line) (lead : List Char) (items : List (Lexeme × List Char)),
    out = fileText ls ++ (lead ++ itemsText items) ∧ ts = fileLexemes ls ++ items.map (·.1) ∧ (∀ l ∈ ls, l.Legal) ∧ Gap lead ∧
    (∀ p ∈ items, p.1.Legal ∧ Gap p.2) ∧ Neighbours true items ∧ (lead ++ itemsText items).length ≤ k

theorem neighbours_weaken {items : List (Lexeme × List Char)} (h : Neighbours true items) (c : Bool) : Neighbours c items := by
  induction items with
  | nil => trivial
  | cons p r ih =>
    obtain ⟨a, g⟩ := p
    cases r with
    | nil => exact ⟨fun _ => h.1 rfl, h.2⟩
    | cons q r => exact ⟨h.1, h.2.1, ih h.2.2⟩

theorem neighbours_append {a b : List (Lexeme × List Char)} {c : Bool} (ha : Neighbours true a) (hb : Neighbours c b) : Neighbours c (a ++ b) := by
  induction a with
  | nil => exact hb
  | cons p r ih =>
    obtain ⟨x, g⟩ := p
    cases r with
    | nil =>
      cases b with
      | nil => exact neighbours_weaken ha c
      | cons q b =>
        obtain ⟨y, k⟩ := q
        refine ⟨?_, fun h => ?_, hb⟩
        · rcases ha.1 rfl with h | h
          · exact Or.inl h
          · exact Or.inr (Or.inl h)
        · rw [ha.2] at h; cases h
    | cons q r => exact ⟨ha.1, ha.2.1, ih ha.2.2⟩

theorem gap_append {a b : List Char} (ha : Gap a) (hb : Gap b) : Gap (a ++ b) := by
  intro c hc
  rcases List.mem_append.1 hc with h | h
  · exact ha c h
  · exact hb c h

theorem keyword_spelled : ∀ k : Keyword, k.spell ≠ [] := by intro k; cases k <;> decide

theorem fileText_append (a b : List Line) : fileText (a ++ b) = fileText a ++ fileText b := List.flatMap_append

theorem fileLexemes_append (a b : List Line) : fileLexemes (a ++ b) = fileLexemes a ++ fileLexemes b := List.flatMap_append

namespace Laid

theorem start : Laid 0 [] [] := ⟨[], [], [], rfl, rfl, by simp, (by intro c hc; cases hc), by simp, trivial, le_refl _⟩

theorem weaken {k k' : Nat} {out : List Char} {ts : List Lexeme} (h : Laid k out ts) (hk : k ≤ k') : Laid k' out ts := by
  obtain ⟨ls, lead, items, h1, h2, h3, h4, h5, h6, h7⟩ := h
  exact ⟨ls, lead, items, h1, h2, h3, h4, h5, h6, h7.trans hk⟩

theorem of_eq {k : Nat} {out out' : List Char} {ts ts' : List Lexeme} (h : Laid k out ts) (h1 : out' = out) (h2 : ts' = ts) : Laid k out' ts' := by
  rw [h1, h2]; exact h

/-- more lexemes on the line -/
theorem emit {k : Nat} {out : List Char} {ts : List Lexeme} (h : Laid k out ts) {b : List (Lexeme × List Char)} (hb : ∀ p ∈ b, p.1.Legal ∧ Gap p.2)
    (hn : Neighbours true b) : Laid (k + (itemsText b).length) (out ++ itemsText b) (ts ++ b.map (·.1)) := by
  obtain ⟨ls, lead, items, h1, h2, h3, h4, h5, h6, h7⟩ := h
  refine ⟨ls, lead, items ++ b, ?_, ?_, h3, h4, ?_, neighbours_append h6 hn, ?_⟩
  · rw [h1, itemsText_append]; simp only [List.append_assoc]
  · rw [h2, List.map_append, List.append_assoc]
  · intro p hp
    rcases List.mem_append.1 hp with hp | hp
    · exact h5 p hp
    · exact hb p hp
  · rw [itemsText_append]
    simp only [List.length_append] at h7 ⊢
    omega

/-- more white space on the line -/
theorem space {k : Nat} {out : List Char} {ts : List Lexeme} (h : Laid k out ts) {g : List Char} (hg : Gap g) : Laid (k + g.length) (out ++ g) ts := by
  obtain ⟨ls, lead, items, h1, h2, h3, h4, h5, h6, h7⟩ := h
  rcases List.eq_nil_or_concat items with rfl | ⟨init, ⟨a, g0⟩, rfl⟩
  · refine ⟨ls, lead ++ g, [], ?_, h2, h3, gap_append h4 hg, by simp, trivial, ?_⟩
    · rw [h1]; simp [itemsText]
    · simp only [itemsText, List.flatMap_nil, List.append_nil, List.length_append] at h7 ⊢
      omega
  · refine ⟨ls, lead, init ++ [(a, g0 ++ g)], ?_, ?_, h3, h4, ?_, ?_, ?_⟩
    · rw [h1]; simp [itemsText]
    · rw [h2]; simp
    · intro p hp
      rcases List.mem_append.1 hp with hp | hp
      · exact h5 p (by simp [hp])
      · rw [List.mem_singleton.1 hp]
        have := h5 (a, g0) (by simp)
        exact ⟨this.1, gap_append this.2 hg⟩
    · clear h1 h2 h5 h7
      rw [List.concat_eq_append] at h6
      induction init with
      | nil => exact ⟨fun _ => (h6.1 rfl).imp (fun h e => h (List.append_eq_nil_iff.1 e).1) id, h6.2⟩
      | cons p r ih =>
        obtain ⟨b, gb⟩ := p
        cases r with
        | nil =>
          refine ⟨h6.1, h6.2.1, ?_⟩
          exact ⟨fun _ => (h6.2.2.1 rfl).imp (fun h e => h (List.append_eq_nil_iff.1 e).1) id, h6.2.2.2⟩
        | cons q r => exact ⟨h6.1, h6.2.1, ih h6.2.2⟩
    · simp only [List.concat_eq_append, itemsText_append, List.length_append] at h7 ⊢
      simp only [itemsText, List.flatMap_cons, List.flatMap_nil, List.append_nil, List.length_append] at h7 ⊢
      omega

/-- the end of the line and white space -/
theorem line {k : Nat} {out : List Char} {ts : List Lexeme} (h : Laid k out ts) (hk : k < 9999) {g : List Char} (hg : Gap g) : Laid g.length (out ++ '\n' :: g) ts := by
  obtain ⟨ls, lead, items, h1, h2, h3, h4, h5, h6, h7⟩ := h
  refine ⟨ls ++ [{ lead := lead, items := items, comment := none }], g, [], ?_, ?_, ?_, hg, by simp, trivial, by simp [itemsText]⟩
  · rw [h1, fileText_append]
    simp [fileText, Line.text, itemsText]
  · rw [h2, fileLexemes_append]
    simp [fileLexemes]
  · intro l hl
    rcases List.mem_append.1 hl with hl | hl
    · exact h3 l hl
    · rw [List.mem_singleton.1 hl]
      refine ⟨h4, h5, neighbours_weaken h6 _, by simp, ?_⟩
      have : (Line.text { lead := lead, items := items, comment := none }) = lead ++ itemsText items := by simp [Line.text, itemsText]
      rw [this]
      omega

/-- more lexemes, the end of the line and white space -/
theorem emitLine {k : Nat} {out : List Char} {ts : List Lexeme} (h : Laid k out ts) {b : List (Lexeme × List Char)} (hb : ∀ p ∈ b, p.1.Legal ∧ Gap p.2)
    (hn : Neighbours false b) (hk : k + (itemsText b).length < 9999) {g : List Char} (hg : Gap g) : Laid g.length (out ++ (itemsText b ++ '\n' :: g)) (ts ++ b.map (·.1)) := by
  obtain ⟨ls, lead, items, h1, h2, h3, h4, h5, h6, h7⟩ := h
  refine ⟨ls ++ [{ lead := lead, items := items ++ b, comment := none }], g, [], ?_, ?_, ?_, hg, by simp, trivial, by simp [itemsText]⟩
  · rw [h1, fileText_append]
    simp [fileText, Line.text, itemsText]
  · rw [h2, fileLexemes_append]
    simp [fileLexemes]
  · intro l hl
    rcases List.mem_append.1 hl with hl | hl
    · exact h3 l hl
    · rw [List.mem_singleton.1 hl]
      refine ⟨h4, ?_, neighbours_append h6 hn, by simp, ?_⟩
      · intro p hp
        rcases List.mem_append.1 hp with hp | hp
        · exact h5 p hp
        · exact hb p hp
      · have : (Line.text { lead := lead, items := items ++ b, comment := none }) = lead ++ itemsText items ++ itemsText b := by simp [Line.text, itemsText]
        rw [this, List.length_append]
        omega

/-- a comment, the end of the line and white space -/
theorem comment {k : Nat} {out : List Char} {ts : List Lexeme} (h : Laid k out ts) {w : List Char} (hw : '\n' ∉ w) (hk : k + w.length + 1 < 9999) {g : List Char} (hg : Gap g) :
    Laid g.length (out ++ '%' :: (w ++ '\n' :: g)) ts := by
  obtain ⟨ls, lead, items, h1, h2, h3, h4, h5, h6, h7⟩ := h
  refine ⟨ls ++ [{ lead := lead, items := items, comment := some w }], g, [], ?_, ?_, ?_, hg, by simp, trivial, by simp [itemsText]⟩
  · rw [h1, fileText_append]
    simp [fileText, Line.text, itemsText]
  · rw [h2, fileLexemes_append]
    simp [fileLexemes]
  · intro l hl
    rcases List.mem_append.1 hl with hl | hl
    · exact h3 l hl
    · rw [List.mem_singleton.1 hl]
      refine ⟨h4, h5, h6, ?_, ?_⟩
      · intro w' hw'; cases hw'; exact hw
      · have : (Line.text { lead := lead, items := items, comment := some w }) = lead ++ itemsText items ++ '%' :: w := by simp [Line.text, itemsText]
        rw [this, List.length_append, List.length_cons]
        omega

/-- a text that ends with a line -/
theorem finish {out : List Char} {ts : List Lexeme} (h : Laid 0 out ts) : ∃ ls : List Line, (∀ l ∈ ls, l.Legal) ∧ fileLexemes ls = ts ∧ out = fileText ls := by
  obtain ⟨ls, lead, items, h1, h2, h3, h4, h5, h6, h7⟩ := h
  have h8 : lead ++ itemsText items = [] := List.length_eq_zero_iff.1 (Nat.le_zero.1 h7)
  have h9 : items = [] := by
    cases items with
    | nil => rfl
    | cons p r =>
      exfalso
      have h10 := (List.append_eq_nil_iff.1 h8).2
      unfold itemsText at h10
      rw [List.flatMap_cons] at h10
      have h11 := (List.append_eq_nil_iff.1 (List.append_eq_nil_iff.1 h10).1).1
      have h12 := (h5 p (by simp)).1
      obtain ⟨a, g⟩ := p
      cases a with
      | key k => exact keyword_spelled k h11
      | name w => obtain ⟨⟨⟨c, r, h, _⟩, _⟩, _⟩ := h12; subst h; cases h11
      | number w =>
        obtain ⟨s, wh, fr, e, h, _, _, h13, _⟩ := h12
        have h11 : w = [] := h11
        rw [h11] at h
        have h := h.symm
        simp only [List.append_eq_nil_iff] at h
        rcases h13 with h13 | ⟨d, h13, _⟩
        · exact h13.1 h.1.1.2
        · rw [h13] at h; cases h.1.2
      | text w => cases h11
      | mark c => cases h11
  subst h9
  exact ⟨ls, h3, by rw [h2]; simp, by rw [h1, h8]; simp⟩

end Laid

end Nip
