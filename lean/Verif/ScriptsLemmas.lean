import Verif.Scripts
import Mathlib.Tactic.Common

/-! # Lemmas about the awk scripts -/

namespace Nip

open Spec

instance (l : List (List Char)) : Decidable (CleanLine l) := inferInstanceAs (Decidable ((∀ f ∈ l, ',' ∉ f ∧ '\n' ∉ f) ∧ l ≠ [[]]))

theorem replicate_lines (g : List (List Char) → List Char) (hg : g [] = ['\n']) (n : Nat) : (List.replicate n []).flatMap g = List.replicate n '\n' := by
  induction n with
  | zero => rfl
  | succ n ih => rw [List.replicate_succ, List.flatMap_cons, ih, hg]; rfl

theorem replicate_three (a b : Nat) (c : Char) : List.replicate a c ++ [c] ++ List.replicate b c = List.replicate (a + 1 + b) c := by
  rw [List.replicate_add, List.replicate_add]
  rfl

/-! ### records and fields -/

/-- a line without its line end -/
def recordText (l : List (List Char)) : List Char := [','].intercalate l

theorem lineText_eq (l : List (List Char)) : lineText l = recordText l ++ ['\n'] := rfl

theorem recordText_cons (f g : List Char) (l : List (List Char)) : recordText (f :: g :: l) = f ++ ',' :: recordText (g :: l) := by
  simp [recordText, List.intercalate]

theorem recordText_one (f : List Char) : recordText [f] = f := by simp [recordText, List.intercalate]

theorem awkRecords_line {r : List Char} (hr : '\n' ∉ r) (cur cs : List Char) : awkRecords cur (r ++ '\n' :: cs) = (cur ++ r) :: awkRecords [] cs := by
  induction r generalizing cur with
  | nil => simp [awkRecords]
  | cons c r ih =>
    have hc : ¬ c = '\n' := fun e => hr (by simp [e])
    rw [List.cons_append, awkRecords, if_neg hc, ih (fun h => hr (by simp [h]))]
    simp

theorem recordText_clean {l : List (List Char)} (h : ∀ f ∈ l, '\n' ∉ f) : '\n' ∉ recordText l := by
  induction l with
  | nil => simp [recordText, List.intercalate]
  | cons f l ih =>
    cases l with
    | nil => rw [recordText_one]; exact h f (by simp)
    | cons g l =>
      rw [recordText_cons, List.mem_append, List.mem_cons, not_or, not_or]
      exact ⟨h f (by simp), by decide, ih (fun x hx => h x (by simp only [List.mem_cons] at hx ⊢; exact Or.inr hx))⟩

theorem awkRecords_lines {lines : List (List (List Char))} (h : ∀ l ∈ lines, CleanLine l) : awkRecords [] (linesText lines) = lines.map recordText := by
  induction lines with
  | nil => rfl
  | cons l lines ih =>
    unfold linesText at ih ⊢
    rw [List.flatMap_cons, lineText_eq, List.append_assoc, List.singleton_append, awkRecords_line (recordText_clean (fun f hf => ((h l (by simp)).1 f hf).2)),
      ih (fun x hx => h x (by simp [hx])), List.map_cons, List.nil_append]

theorem awkRecords_unended (cur t : List Char) (h1 : t = [] → cur ≠ []) (h2 : t.getLast? ≠ some '\n') : awkRecords cur (t ++ ['\n']) = awkRecords cur t := by
  induction t generalizing cur with
  | nil =>
    have := h1 rfl
    cases cur with
    | nil => exact absurd rfl this
    | cons c cur => simp [awkRecords]
  | cons c t ih =>
    rw [List.cons_append, awkRecords, awkRecords]
    cases t with
    | nil =>
      have hc : ¬ c = '\n' := fun e => h2 (by simp [e])
      rw [if_neg hc, if_neg hc]
      exact ih _ (fun _ => by simp) (by simp)
    | cons d t =>
      have h2' : (d :: t).getLast? ≠ some '\n' := by rwa [List.getLast?_cons_cons] at h2
      split
      · rw [ih [] (fun e => absurd e (by simp)) h2']
      · rw [ih _ (fun e => absurd e (by simp)) h2']

theorem recordText_ne_nil {l : List (List Char)} (h0 : l ≠ []) (h : CleanLine l) : recordText l ≠ [] := by
  cases l with
  | nil => exact absurd rfl h0
  | cons f l =>
    cases l with
    | nil =>
      rw [recordText_one]
      rintro rfl
      exact h.2 rfl
    | cons g l =>
      rw [recordText_cons]
      simp

theorem awkRecords_text {lines : List (List (List Char))} {text : List Char} (h : TextOf lines text) : awkRecords [] text = lines.map recordText := by
  obtain ⟨hc, rfl | ⟨he, hl⟩⟩ := h
  · exact awkRecords_lines hc
  · rw [← awkRecords_lines hc, ← he]
    rcases List.eq_nil_or_concat lines with rfl | ⟨init, l, rfl⟩
    · simp [linesText] at he
    · rw [List.concat_eq_append] at he hl hc
      have hln : l ≠ [] := fun e => hl (by simp [e])
      have hcl := hc l (by simp)
      have ht : text = linesText init ++ recordText l := by
        have : text ++ ['\n'] = (linesText init ++ recordText l) ++ ['\n'] := by
          rw [he]; simp [linesText, lineText_eq]
        exact List.append_cancel_right this
      have hne := recordText_ne_nil hln hcl
      have hlast : text.getLast? = (recordText l).getLast? := by
        rw [ht, List.getLast?_append_of_ne_nil _ hne]
      symm
      refine awkRecords_unended [] text (fun e => ?_) ?_
      · rw [ht] at e
        exact absurd (List.append_eq_nil_iff.1 e).2 hne
      · rw [hlast]
        intro e
        exact recordText_clean (fun f hf => (hcl.1 f hf).2) (List.mem_of_getLast? e)

theorem awkBetween_plain {f : List Char} (hf : ',' ∉ f) (cur : List Char) : awkBetween cur f = [cur ++ f] := by
  induction f generalizing cur with
  | nil => simp [awkBetween]
  | cons c f ih =>
    have hc : ¬ c = ',' := fun e => hf (by simp [e])
    rw [awkBetween, if_neg hc, ih (fun h => hf (by simp [h]))]
    simp

theorem awkBetween_comma {f : List Char} (hf : ',' ∉ f) (cur cs : List Char) : awkBetween cur (f ++ ',' :: cs) = (cur ++ f) :: awkBetween [] cs := by
  induction f generalizing cur with
  | nil => simp [awkBetween]
  | cons c f ih =>
    have hc : ¬ c = ',' := fun e => hf (by simp [e])
    rw [List.cons_append, awkBetween, if_neg hc, ih (fun h => hf (by simp [h]))]
    simp

theorem awkBetween_record {l : List (List Char)} (h0 : l ≠ []) (h : ∀ f ∈ l, ',' ∉ f) : awkBetween [] (recordText l) = l := by
  induction l with
  | nil => exact absurd rfl h0
  | cons f l ih =>
    cases l with
    | nil => rw [recordText_one, awkBetween_plain (h f (by simp))]; rfl
    | cons g l =>
      rw [recordText_cons, awkBetween_comma (h f (by simp)), ih (by simp) (fun x hx => h x (by simp only [List.mem_cons] at hx ⊢; exact Or.inr hx))]
      rfl

theorem awkFields_record {l : List (List Char)} (h : CleanLine l) : awkFields (recordText l) = l := by
  unfold awkFields
  by_cases h0 : l = []
  · subst h0; rfl
  · rw [if_neg (recordText_ne_nil h0 h)]
    exact awkBetween_record h0 (fun f hf => (h.1 f hf).1)

/-! ### every text is a data file -/

theorem awkRecords_back (cur t : List Char) (hc : '\n' ∉ cur) : (∀ r ∈ awkRecords cur t, '\n' ∉ r) ∧
    (cur ++ t = (awkRecords cur t).flatMap (fun r => r ++ ['\n']) ∨
      cur ++ t ++ ['\n'] = (awkRecords cur t).flatMap (fun r => r ++ ['\n']) ∧ (awkRecords cur t).getLast? ≠ some []) := by
  induction t generalizing cur with
  | nil =>
    cases cur with
    | nil => simp [awkRecords]
    | cons c cur => simpa [awkRecords] using hc
  | cons c t ih =>
    rw [awkRecords]
    split
    · rename_i e
      subst e
      obtain ⟨i1, i2⟩ := ih [] (by simp)
      refine ⟨?_, ?_⟩
      · intro r hr
        rcases List.mem_cons.1 hr with rfl | hr
        · exact hc
        · exact i1 r hr
      · rcases i2 with i2 | ⟨i2, i3⟩
        · left
          rw [List.flatMap_cons, ← i2]
          simp
        · right
          refine ⟨?_, ?_⟩
          · rw [List.flatMap_cons, ← i2]
            simp
          · cases hrs : awkRecords [] t with
            | nil => rw [hrs] at i2; simp at i2
            | cons r rs => rw [List.getLast?_cons_cons, ← hrs]; exact i3
    · rename_i e
      obtain ⟨i1, i2⟩ := ih (cur ++ [c]) (by simp only [List.mem_append, List.mem_singleton, not_or]; exact ⟨hc, fun h => e h.symm⟩)
      exact ⟨i1, by simpa using i2⟩

theorem awkBetween_back (cur t : List Char) (hc : ',' ∉ cur) : recordText (awkBetween cur t) = cur ++ t ∧ awkBetween cur t ≠ [] ∧ (∀ f ∈ awkBetween cur t, ',' ∉ f) := by
  induction t generalizing cur with
  | nil => simpa [awkBetween, recordText_one] using hc
  | cons c t ih =>
    rw [awkBetween]
    split
    · rename_i e
      subst e
      obtain ⟨i1, i2, i3⟩ := ih [] (by simp)
      refine ⟨?_, by simp, ?_⟩
      · cases hb : awkBetween [] t with
        | nil => exact absurd hb i2
        | cons g l => rw [recordText_cons, ← hb, i1]; simp
      · intro f hf
        rcases List.mem_cons.1 hf with rfl | hf
        · exact hc
        · exact i3 f hf
    · rename_i e
      obtain ⟨i1, i2, i3⟩ := ih (cur ++ [c]) (by simp only [List.mem_append, List.mem_singleton, not_or]; exact ⟨hc, fun h => e h.symm⟩)
      exact ⟨by simpa using i1, i2, i3⟩

theorem recordText_mem {l : List (List Char)} {f : List Char} {c : Char} (hf : f ∈ l) (hc : c ∈ f) : c ∈ recordText l := by
  induction l with
  | nil => simp at hf
  | cons g l ih =>
    cases l with
    | nil =>
      rw [recordText_one]
      rw [List.mem_singleton.1 hf] at hc
      exact hc
    | cons h l =>
      rw [recordText_cons]
      rcases List.mem_cons.1 hf with rfl | hf
      · simp [hc]
      · simp [ih hf]

theorem awkFields_back {r : List Char} (hr : '\n' ∉ r) : recordText (awkFields r) = r ∧ CleanLine (awkFields r) ∧ (awkFields r = [] → r = []) := by
  unfold awkFields
  by_cases h0 : r = []
  · subst h0
    simp [recordText, List.intercalate, CleanLine]
  · rw [if_neg h0]
    obtain ⟨i1, i2, i3⟩ := awkBetween_back [] r (by simp)
    rw [List.nil_append] at i1
    refine ⟨i1, ⟨fun f hf => ⟨i3 f hf, fun hn => hr ?_⟩, ?_⟩, fun e => absurd e i2⟩
    · rw [← i1]
      exact recordText_mem hf hn
    · intro e
      rw [e, recordText_one] at i1
      exact h0 i1.symm

theorem text_exists (text : List Char) : ∃ lines, TextOf lines text := by
  obtain ⟨h1, h2⟩ := awkRecords_back [] text (by simp)
  rw [List.nil_append] at h2
  have ht : linesText ((awkRecords [] text).map awkFields) = (awkRecords [] text).flatMap (fun r => r ++ ['\n']) := by
    unfold linesText
    rw [List.flatMap_map]
    refine List.flatMap_congr fun r hr => ?_
    rw [lineText_eq, (awkFields_back (h1 r hr)).1]
  refine ⟨(awkRecords [] text).map awkFields, ?_, ?_⟩
  · intro l hl
    obtain ⟨r, hr, rfl⟩ := List.mem_map.1 hl
    exact (awkFields_back (h1 r hr)).2.1
  · rw [ht]
    rcases h2 with h2 | ⟨h2, h3⟩
    · exact Or.inl h2
    · refine Or.inr ⟨h2, ?_⟩
      rw [List.getLast?_map]
      intro e
      cases hl : (awkRecords [] text).getLast? with
      | none => rw [hl] at e; simp at e
      | some r =>
        rw [hl] at e h3
        simp only [Option.map_some, Option.some.injEq] at e
        exact h3 (by rw [(awkFields_back (h1 r (List.mem_of_getLast? hl))).2.2 e])

/-! ### `select.awk` -/

theorem Select.record_fields (num : List Char → Option ℚ) (var : List Char) (s : Select) {l : List (List Char)} (h : CleanLine l) (he : s.exited = false) :
    s.record num var (recordText l) = if l = [] then { s with out := s.out ++ ['\n'] } else l.zipIdx.foldl (Select.field num var l.length) s := by
  unfold Select.record
  rw [if_neg (by simp [he])]
  simp only [awkFields_record h]
  by_cases h0 : l = []
  · subst h0
    simp [recordText, List.intercalate]
  · rw [if_neg (by simpa using h0), if_neg h0]

theorem Select.field_header (num : List Char → Option ℚ) (var : List Char) (nf : Nat) (s : Select) (f : List Char) (i : Nat) (he : s.exited = false) (hl : s.line = 0) :
    s.field num var nf (f, i) = ⟨if i + 1 = nf then 1 else 0, s.found || awkEq num (some var) (some f), Function.update s.name i (some f),
      s.out ++ (if awkEq num (some f) (some var) then f else []) ++ (if i + 1 = nf then ['\n'] else []), s.err, false⟩ := by
  unfold Select.field
  obtain ⟨line, found, name, out, err, exited⟩ := s
  simp only at he hl
  subst he hl
  cases h1 : awkEq num (some var) (some f) <;> cases h2 : awkEq num (some f) (some var) <;> by_cases h3 : i + 1 = nf <;> simp [h2, h3]

/-- the first line that is not empty -/
theorem Select.header_fold {num : List Char → Option ℚ} {var : List Char} (l : List (List Char)) (n : Nat) (s : Select) (he : s.exited = false) (hl : s.line = 0) (h0 : l ≠ []) :
    (l.zipIdx n).foldl (Select.field num var (n + l.length)) s =
      ⟨1, s.found || l.any (fun f => awkEq num (some var) (some f)), fun j => if n ≤ j ∧ j < n + l.length then l[j - n]? else s.name j,
        s.out ++ l.flatMap (fun f => if awkEq num (some f) (some var) then f else []) ++ ['\n'], s.err, false⟩ := by
  induction l generalizing n s with
  | nil => exact absurd rfl h0
  | cons f l ih =>
    rw [List.zipIdx_cons, List.foldl_cons, Select.field_header num var _ s f n he hl]
    cases l with
    | nil =>
      simp only [List.length_singleton, if_true, List.zipIdx_nil, List.foldl_nil, List.any_cons, List.any_nil, Bool.or_false, List.flatMap_cons, List.flatMap_nil, List.append_nil]
      congr 1
      funext j
      by_cases hj : j = n
      · subst hj; simp
      · rw [Function.update_of_ne hj, if_neg (by omega)]
    | cons g l =>
      have hn : ¬ n + 1 = n + (f :: g :: l).length := by simp
      have hlen : n + (f :: g :: l).length = (n + 1) + (g :: l).length := by simp; omega
      rw [if_neg hn, if_neg hn, hlen, ih (n + 1) _ rfl rfl (by simp)]
      simp only [List.any_cons, List.flatMap_cons, Bool.or_assoc, List.append_nil, List.append_assoc]
      congr 1
      funext j
      by_cases hj : j = n
      · subst hj
        rw [if_neg (by omega), if_pos (by simp; omega)]
        simp
      · by_cases hj2 : n + 1 ≤ j ∧ j < n + 1 + (g :: l).length
        · rw [if_pos hj2, if_pos (by omega)]
          obtain ⟨k, rfl⟩ : ∃ k, j = n + 1 + k := ⟨j - (n + 1), by omega⟩
          have h1 : n + 1 + k - (n + 1) = k := by omega
          have h2 : n + 1 + k - n = k + 1 := by omega
          rw [h1, h2, List.getElem?_cons_succ]
        · rw [if_neg hj2, if_neg (by omega), Function.update_of_ne hj]

theorem Select.field_data (num : List Char → Option ℚ) (var : List Char) (nf : Nat) (s : Select) (f : List Char) (i : Nat) (he : s.exited = false) (hl : s.line ≠ 0) (hf : s.found = true) :
    s.field num var nf (f, i) = ⟨if i + 1 = nf then s.line + 1 else s.line, true, s.name,
      s.out ++ (if awkEq num (s.name i) (some var) then f else []) ++ (if i + 1 = nf then ['\n'] else []), s.err, false⟩ := by
  unfold Select.field
  obtain ⟨line, found, name, out, err, exited⟩ := s
  simp only at he hl hf
  subst he hf
  cases h2 : awkEq num (name i) (some var) <;> by_cases h3 : i + 1 = nf <;> simp [h2, h3, hl]

/-- a line below it, if the variable was found -/
theorem Select.data_fold {num : List Char → Option ℚ} {var : List Char} (l : List (List Char)) (n : Nat) (s : Select) (he : s.exited = false) (hl : s.line ≠ 0) (hf : s.found = true)
    (h0 : l ≠ []) :
    (l.zipIdx n).foldl (Select.field num var (n + l.length)) s =
      ⟨s.line + 1, true, s.name, s.out ++ (l.zipIdx n).flatMap (fun f => if awkEq num (s.name f.2) (some var) then f.1 else []) ++ ['\n'], s.err, false⟩ := by
  induction l generalizing n s with
  | nil => exact absurd rfl h0
  | cons f l ih =>
    rw [List.zipIdx_cons, List.foldl_cons, Select.field_data num var _ s f n he hl hf]
    cases l with
    | nil => simp
    | cons g l =>
      have hn : ¬ n + 1 = n + (f :: g :: l).length := by simp
      have hlen : n + (f :: g :: l).length = (n + 1) + (g :: l).length := by simp; omega
      rw [if_neg hn, if_neg hn, hlen, ih (n + 1)]
      · simp only [List.flatMap_cons, List.append_nil, List.append_assoc]
      · rfl
      · exact hl
      · rfl
      · simp

theorem pick_column (l : List (List Char)) (n k : Nat) : (l.zipIdx n).flatMap (fun f => if f.2 = k then f.1 else []) = if n ≤ k then l.getD (k - n) [] else [] := by
  induction l generalizing n with
  | nil => simp
  | cons f l ih =>
    rw [List.zipIdx_cons, List.flatMap_cons, ih]
    by_cases h1 : n = k
    · subst h1
      simp
    · by_cases h2 : n ≤ k
      · have h3 : k - n = (k - (n + 1)) + 1 := by omega
        rw [if_neg h1, if_pos (by omega), if_pos h2, h3, List.getD_cons_succ]
        rfl
      · rw [if_neg h1, if_neg (by omega), if_neg h2]
        rfl

theorem Select.empties (num : List Char → Option ℚ) (var : List Char) (n : Nat) (s : Select) (he : s.exited = false) :
    ((List.replicate n ([] : List (List Char))).map recordText).foldl (Select.record num var) s = { s with out := s.out ++ List.replicate n '\n' } := by
  induction n generalizing s with
  | zero => simp
  | succ n ih =>
    rw [List.replicate_succ, List.map_cons, List.foldl_cons, Select.record_fields num var s (by simp [CleanLine]) he, if_pos rfl, ih]
    · simp [List.replicate_succ]
    · exact he

/-- the lines below the header, if the variable was found in column `k` -/
theorem Select.below {num : List Char → Option ℚ} {var : List Char} {k : Nat} (lines : List (List (List Char))) (s : Select) (hc : ∀ l ∈ lines, CleanLine l) (he : s.exited = false)
    (hl : s.line ≠ 0) (hf : s.found = true) (hk : ∀ l ∈ lines, ∀ j < l.length, awkEq num (s.name j) (some var) = decide (j = k)) :
    ∃ line, (lines.map recordText).foldl (Select.record num var) s = ⟨line, true, s.name, s.out ++ columnText k lines, s.err, false⟩ := by
  induction lines generalizing s with
  | nil => exact ⟨s.line, by obtain ⟨line, found, name, out, err, exited⟩ := s; simp_all [columnText]⟩
  | cons l lines ih =>
    rw [List.map_cons, List.foldl_cons, Select.record_fields num var s (hc l (by simp)) he]
    by_cases h0 : l = []
    · rw [if_pos h0]
      obtain ⟨line, h⟩ := ih { s with out := s.out ++ ['\n'] } (fun x hx => hc x (by simp [hx])) he hl hf (fun x hx => hk x (by simp [hx]))
      refine ⟨line, ?_⟩
      rw [h]
      simp [columnText, h0]
    · have hd := Select.data_fold (num := num) (var := var) l 0 s he hl hf h0
      rw [Nat.zero_add] at hd
      rw [if_neg h0, hd]
      obtain ⟨line, h⟩ := ih ⟨s.line + 1, true, s.name, s.out ++ (l.zipIdx 0).flatMap (fun f => if awkEq num (s.name f.2) (some var) then f.1 else []) ++ ['\n'], s.err, false⟩
        (fun x hx => hc x (by simp [hx])) rfl (by simp) rfl (fun x hx => hk x (by simp [hx]))
      refine ⟨line, ?_⟩
      rw [h]
      have hp : (l.zipIdx 0).flatMap (fun f => if awkEq num (s.name f.2) (some var) then f.1 else []) = l.getD k [] := by
        have := pick_column l 0 k
        rw [if_pos (Nat.zero_le k), Nat.sub_zero] at this
        rw [← this]
        refine List.flatMap_congr fun f hf' => ?_
        have hlt : f.2 < l.length := by
          have := List.mem_zipIdx hf'
          omega
        rw [hk l (by simp) f.2 hlt]
        simp
      rw [hp]
      simp [columnText]

theorem awkEq_text {num : List Char → Option ℚ} {var : List Char} (hv : num var = none) (a : List Char) :
    awkEq num (some a) (some var) = decide (a = var) ∧ awkEq num (some var) (some a) = decide (var = a) := by
  constructor
  · unfold awkEq
    simp only [hv]
    cases num a <;> rfl
  · unfold awkEq
    simp only [hv]

theorem awkEq_unset {num : List Char → Option ℚ} {var : List Char} (hv : num var = none) : awkEq num none (some var) = decide ([] = var) := by
  unfold awkEq
  simp only [hv]

theorem Select.exited_fold (num : List Char → Option ℚ) (var : List Char) (rs : List (List Char)) (s : Select) (he : s.exited = true) : rs.foldl (Select.record num var) s = s := by
  induction rs with
  | nil => rfl
  | cons r rs ih =>
    rw [List.foldl_cons]
    have : s.record num var r = s := by unfold Select.record; rw [if_pos he]
    rw [this, ih]

theorem Select.exited_fields (num : List Char → Option ℚ) (var : List Char) (nf : Nat) (fs : List (List Char × Nat)) (s : Select) (he : s.exited = true) :
    fs.foldl (Select.field num var nf) s = s := by
  induction fs with
  | nil => rfl
  | cons r rs ih =>
    rw [List.foldl_cons]
    have : s.field num var nf r = s := by unfold Select.field; rw [if_pos he]
    rw [this, ih]

/-- the second line that is not empty, if the variable was not found -/
theorem Select.lost {num : List Char → Option ℚ} {var : List Char} {l : List (List Char)} (h0 : l ≠ []) (s : Select) (he : s.exited = false) (hl : s.line = 1) (hf : s.found = false) :
    l.zipIdx.foldl (Select.field num var l.length) s = { s with err := s.err ++ "select.awk: Variable ".toList ++ var ++ " not found!\n".toList, exited := true } := by
  cases l with
  | nil => exact absurd rfl h0
  | cons f l =>
    rw [List.zipIdx_cons, List.foldl_cons]
    have : s.field num var (f :: l).length (f, 0) = { s with err := s.err ++ "select.awk: Variable ".toList ++ var ++ " not found!\n".toList, exited := true } := by
      unfold Select.field
      rw [if_neg (by simp [he])]
      simp [hl, hf]
    rw [this, Select.exited_fields _ _ _ _ _ rfl]

/-! ### `hide_values.awk` -/

/-- fields with commas after those that are kept, except the last, and a line end -/
def sepText : List (Option (List Char)) → List Char
  | [] => []
  | [o] => o.getD [] ++ ['\n']
  | o :: o' :: os => o.getD [] ++ (if o.isSome then [','] else []) ++ sepText (o' :: os)

theorem sepText_eq (os : List (Option (List Char))) (h0 : os ≠ []) :
    sepText os = recordText (os.filterMap id) ++ (if os.getLast? = some none ∧ os.filterMap id ≠ [] then [','] else []) ++ ['\n'] := by
  induction os with
  | nil => exact absurd rfl h0
  | cons o os ih =>
    cases os with
    | nil =>
      cases o with
      | none => simp [sepText, recordText, List.intercalate]
      | some f => simp [sepText, recordText_one]
    | cons o' os =>
      have ih' := ih (by simp)
      rw [sepText, ih', List.getLast?_cons_cons]
      cases o with
      | none => simp
      | some f =>
        have hf : (some f :: o' :: os).filterMap id = f :: (o' :: os).filterMap id := by simp
        rw [hf]
        cases hk : (o' :: os).filterMap id with
        | nil =>
          have hl : (o' :: os).getLast? = some none := by
            have : (o' :: os).getLast? = some ((o' :: os).getLast (by simp)) := List.getLast?_eq_some_getLast (by simp)
            rw [this]
            have hall : ∀ x ∈ o' :: os, x = none := by
              intro x hx
              cases x with
              | none => rfl
              | some y =>
                have : y ∈ (o' :: os).filterMap id := List.mem_filterMap.2 ⟨some y, hx, rfl⟩
                rw [hk] at this
                cases this
            rw [hall _ (List.getLast_mem _)]
          rw [hl]
          simp [recordText_one, recordText, List.intercalate]
        | cons g l =>
          rw [recordText_cons]
          simp

/-- a field of the header -/
def nameItem (prob : List Char → ℤ) (f : List Char) : Option (List Char) := if 0 ≤ prob f then some (shownName prob f) else none

/-- a field of another line -/
def valueItem (q : ℤ) (r : Nat) (f : List Char) : Option (List Char) := if 0 ≤ q then some (shownValue q r f) else none

theorem Hide.field_header (prob : List Char → ℤ) (random : Nat → Nat) (nf : Nat) (s : Hide) (f : List Char) (i : Nat) (hl : s.line = 0) :
    s.field prob random nf (f, i) = ⟨if i + 1 = nf then 1 else 0, Function.update s.name i f, s.drawn,
      s.out ++ ((nameItem prob f).getD [] ++ (if i + 1 = nf then ['\n'] else if (nameItem prob f).isSome then [','] else []))⟩ := by
  unfold Hide.field nameItem shownName
  obtain ⟨line, name, drawn, out⟩ := s
  simp only at hl
  subst hl
  rcases lt_trichotomy (prob f) 0 with h | h | h
  · by_cases h3 : i + 1 = nf <;> simp [h3, not_le.2 h, h.ne, not_lt.2 h.le]
  · by_cases h3 : i + 1 = nf <;> simp [h3, h]
  · by_cases h3 : i + 1 = nf <;> simp [h3, h, h.le, h.ne']

theorem Hide.field_data (prob : List Char → ℤ) (random : Nat → Nat) (nf : Nat) (s : Hide) (f : List Char) (i : Nat) (hl : s.line ≠ 0) :
    s.field prob random nf (f, i) = ⟨if i + 1 = nf then s.line + 1 else s.line, s.name, s.drawn + 1,
      s.out ++ ((valueItem (prob (s.name i)) (random s.drawn) f).getD [] ++ (if i + 1 = nf then ['\n'] else if (valueItem (prob (s.name i)) (random s.drawn) f).isSome then [','] else []))⟩ := by
  unfold Hide.field valueItem shownValue
  obtain ⟨line, name, drawn, out⟩ := s
  simp only at hl
  simp only [if_neg hl]
  rcases lt_trichotomy (prob (name i)) 0 with h | h | h
  · have hr : ¬ ((random drawn : ℤ) < prob (name i)) := by have := Int.natCast_nonneg (random drawn); omega
    by_cases h3 : i + 1 = nf <;> simp [h3, not_le.2 h, h.ne, not_lt.2 h.le, hr]
  · by_cases h3 : i + 1 = nf <;> simp [h3, h]
  · by_cases hr : (random drawn : ℤ) < prob (name i) <;> by_cases h3 : i + 1 = nf <;> simp [h3, h, h.le, h.ne', hr]

theorem Hide.header_fold {prob : List Char → ℤ} {random : Nat → Nat} (l : List (List Char)) (n : Nat) (s : Hide) (hl : s.line = 0) (h0 : l ≠ []) :
    (l.zipIdx n).foldl (Hide.field prob random (n + l.length)) s =
      ⟨1, fun j => if n ≤ j ∧ j < n + l.length then l.getD (j - n) [] else s.name j, s.drawn, s.out ++ sepText (l.map (nameItem prob))⟩ := by
  induction l generalizing n s with
  | nil => exact absurd rfl h0
  | cons f l ih =>
    rw [List.zipIdx_cons, List.foldl_cons, Hide.field_header prob random _ s f n hl]
    cases l with
    | nil =>
      simp only [List.length_singleton, if_true, List.zipIdx_nil, List.foldl_nil, List.map_cons, List.map_nil, sepText]
      congr 1
      funext j
      by_cases hj : j = n
      · subst hj; simp
      · rw [Function.update_of_ne hj, if_neg (by omega)]
    | cons g l =>
      have hn : ¬ n + 1 = n + (f :: g :: l).length := by simp
      have hlen : n + (f :: g :: l).length = (n + 1) + (g :: l).length := by simp; omega
      rw [if_neg hn, if_neg hn, hlen, ih (n + 1) _ rfl (by simp)]
      simp only [List.map_cons, sepText, List.append_assoc]
      congr 1
      funext j
      by_cases hj : j = n
      · subst hj
        rw [if_neg (by omega), if_pos (by simp; omega)]
        simp
      · by_cases hj2 : n + 1 ≤ j ∧ j < n + 1 + (g :: l).length
        · rw [if_pos hj2, if_pos (by omega)]
          obtain ⟨k, rfl⟩ : ∃ k, j = n + 1 + k := ⟨j - (n + 1), by omega⟩
          have h1 : n + 1 + k - (n + 1) = k := by omega
          have h2 : n + 1 + k - n = k + 1 := by omega
          rw [h1, h2, List.getD_cons_succ]
        · rw [if_neg hj2, if_neg (by omega), Function.update_of_ne hj]

theorem Hide.data_fold {prob : List Char → ℤ} {random : Nat → Nat} {b : Nat} (l : List (List Char)) (n : Nat) (s : Hide) (hl : s.line ≠ 0) (h0 : l ≠ []) (hb : s.drawn = b + n) :
    (l.zipIdx n).foldl (Hide.field prob random (n + l.length)) s =
      ⟨s.line + 1, s.name, s.drawn + l.length, s.out ++ sepText ((l.zipIdx n).map (fun f => valueItem (prob (s.name f.2)) (random (b + f.2)) f.1))⟩ := by
  induction l generalizing n s with
  | nil => exact absurd rfl h0
  | cons f l ih =>
    rw [List.zipIdx_cons, List.foldl_cons, Hide.field_data prob random _ s f n hl]
    cases l with
    | nil => simp [sepText, hb]
    | cons g l =>
      have hn : ¬ n + 1 = n + (f :: g :: l).length := by simp
      have hlen : n + (f :: g :: l).length = (n + 1) + (g :: l).length := by simp; omega
      rw [if_neg hn, if_neg hn, hlen, ih (n + 1)]
      · simp only [List.zipIdx_cons, List.map_cons, sepText, List.append_assoc, hb, List.length_cons]
        congr 1
        omega
      · exact hl
      · simp
      · simp only [hb]
        omega

theorem filterMap_kept {α : Type} (l : List α) (p : α → Prop) [DecidablePred p] (g : α → List Char) :
    (l.map (fun a => if p a then some (g a) else none)).filterMap id = (l.filter (fun a => decide (p a))).map g := by
  induction l with
  | nil => rfl
  | cons a l ih =>
    by_cases h : p a
    · simp [h]
      simpa using ih
    · simp [h]
      simpa using ih

theorem sepText_kept {prob : List Char → ℤ} {header : List (List Char)} {shown : Nat → List Char → List Char} {l : List (List Char)} (h0 : l ≠ []) :
    sepText (l.zipIdx.map (fun f => if 0 ≤ prob (header.getD f.2 []) then some (shown f.2 f.1) else none)) = hideLine prob header shown l := by
  rw [sepText_eq _ (by simpa using h0), filterMap_kept]
  unfold hideLine keptFields
  change recordText _ ++ _ ++ _ = recordText _ ++ _ ++ _
  congr 2
  refine if_congr ?_ rfl rfl
  rw [List.getLast?_map]
  have hlast : l.zipIdx.getLast? = some (l.getLast h0, l.length - 1) := by
    rw [List.getLast?_eq_getElem?, List.length_zipIdx, List.getElem?_zipIdx, List.getElem?_eq_getElem (by have := List.length_pos_iff.2 h0; omega)]
    simp [List.getLast_eq_getElem]
  rw [hlast]
  simp only [Option.map_some, Option.some.injEq]
  constructor
  · rintro ⟨h1, h2⟩
    refine ⟨h0, ?_, h2⟩
    by_contra h3
    rw [if_pos (not_lt.1 h3)] at h1
    cases h1
  · rintro ⟨_, h1, h2⟩
    exact ⟨if_neg (not_le.2 h1), h2⟩

theorem Hide.record_fields (prob : List Char → ℤ) (random : Nat → Nat) (s : Hide) {l : List (List Char)} (h : CleanLine l) :
    s.record prob random (recordText l) = if l = [] then { s with out := s.out ++ ['\n'] } else l.zipIdx.foldl (Hide.field prob random l.length) s := by
  unfold Hide.record
  simp only [awkFields_record h]
  by_cases h0 : l = []
  · subst h0
    simp [recordText, List.intercalate]
  · rw [if_neg (by simpa using h0), if_neg h0]

theorem Hide.empties (prob : List Char → ℤ) (random : Nat → Nat) (n : Nat) (s : Hide) :
    ((List.replicate n ([] : List (List Char))).map recordText).foldl (Hide.record prob random) s = { s with out := s.out ++ List.replicate n '\n' } := by
  induction n generalizing s with
  | zero => simp
  | succ n ih =>
    rw [List.replicate_succ, List.map_cons, List.foldl_cons, Hide.record_fields prob random s (by simp [CleanLine]), if_pos rfl, ih]
    simp [List.replicate_succ]

theorem Hide.below {prob : List Char → ℤ} {random : Nat → Nat} {header : List (List Char)} (lines : List (List (List Char))) (s : Hide) (hc : ∀ l ∈ lines, CleanLine l)
    (hl : s.line ≠ 0) (hn : s.name = fun j => header.getD j []) :
    ((lines.map recordText).foldl (Hide.record prob random) s).out = s.out ++ hideBelow prob header random s.drawn lines := by
  induction lines generalizing s with
  | nil => simp [hideBelow]
  | cons l lines ih =>
    rw [List.map_cons, List.foldl_cons, Hide.record_fields prob random s (hc l (by simp))]
    by_cases h0 : l = []
    · rw [if_pos h0, ih _ (fun x hx => hc x (by simp [hx]))]
      · subst h0
        simp [hideBelow, hideLine, keptFields, recordText, List.intercalate]
      · exact hl
      · exact hn
    · have hd := Hide.data_fold (prob := prob) (random := random) (b := s.drawn) l 0 s hl h0 rfl
      rw [Nat.zero_add] at hd
      rw [if_neg h0, hd, ih _ (fun x hx => hc x (by simp [hx]))]
      · simp only [hideBelow, List.append_assoc]
        congr 2
        rw [hn]
        exact sepText_kept (shown := fun j f => shownValue (prob (header.getD j [])) (random (s.drawn + j)) f) h0
      · simp
      · exact hn

theorem hide_script {prob : List Char → ℤ} {random : Nat → Nat} {text : List Char} {lines : List (List (List Char))} (ht : TextOf lines text) {above : Nat} {header : List (List Char)}
    {below : List (List (List Char))} (hh : HasHeader lines above header below) :
    hideScript prob random text = List.replicate above '\n' ++ hideLine prob header (fun _ f => shownName prob f) header ++ hideBelow prob header random 0 below := by
  obtain ⟨rfl, h0⟩ := hh
  unfold hideScript
  have hch : CleanLine header := ht.1 header (by simp)
  rw [awkRecords_text ht, List.map_append, List.foldl_append, Hide.empties, List.map_cons, List.foldl_cons, Hide.record_fields _ _ _ hch, if_neg h0]
  have hd := Hide.header_fold (prob := prob) (random := random) header 0 { out := List.replicate above '\n' } rfl h0
  rw [Nat.zero_add] at hd
  rw [List.nil_append, hd, Hide.below (header := header) below _ (fun x hx => ht.1 x (by simp [hx])) (by simp) (by
    funext j
    simp only [Nat.zero_le, true_and, Nat.sub_zero]
    split
    · rfl
    · rename_i h
      rw [List.getD_eq_getElem?_getD, List.getElem?_eq_none (by omega)]
      rfl)]
  simp only
  congr 2
  have hitems : header.map (nameItem prob) = header.zipIdx.map (fun f => if 0 ≤ prob (header.getD f.2 []) then some (shownName prob f.1) else none) := by
    refine List.ext_getElem? fun j => ?_
    rw [List.getElem?_map, List.getElem?_map, List.getElem?_zipIdx]
    cases hj : header[j]? with
    | none => rfl
    | some f => simp [nameItem, hj]
  rw [hitems]
  exact sepText_kept (shown := fun _ f => shownName prob f) h0

end Nip
