import Verif.DataFileLemmas
import Verif.HuginLex
import Verif.TokensRun

/-! # The words of a line of a network file -/

namespace Nip

open Res Spec

/-- one of the separators -/
def isMark (c : Char) : Bool := huginOpt.isSep c

theorem isMark_eq (c : Char) : isMark c = separators.contains c := by
  unfold isMark TokOpt.isSep huginOpt separators
  simp only [List.contains_eq_any_beq]

/-- the words of the rest of a line, when the word `cur` has been begun (`mode` is 1, or 2 in quotes) -/
def scanWords (mode : Nat) (cur : List Char) (found : Bool) : List Char → List (List Char)
  | [] => if mode = 0 then [] else [cur]
  | c :: r =>
    if mode ≠ 2 ∧ (found || isMark c) = true then (if mode = 1 then [cur] else []) ++ [c] :: scanWords 0 [] false r
    else if mode ≠ 2 ∧ c = '"' then
      if r.any (fun d => d == '"') then (if mode = 1 then [cur] else []) ++ scanWords 2 [c] false r
      else scanWords mode (if mode = 1 then cur ++ [c] else []) false r
    else if mode = 0 then if isSpace c then scanWords 0 [] false r else scanWords 1 [c] false r
    else if mode = 1 then if isSpace c then cur :: scanWords 0 [] false r else scanWords 1 (cur ++ [c]) false r
    else if c = '\n' then cur :: scanWords 0 [] (found || isMark c) r
    else if c = '"' then (cur ++ [c]) :: scanWords 0 [] (found || isMark c) r
    else scanWords 2 (cur ++ [c]) (found || isMark c) r

theorem tokText_succ (s : List Char) (b k : Nat) (hb : b ≤ k) (hk : k < s.length) : tokText s (b, k + 1) = tokText s (b, k) ++ [s[k]] := by
  unfold tokText
  rw [show k + 1 - b = (k - b) + 1 by omega, List.take_succ_eq_append_getElem (by rw [List.length_drop]; omega),
    List.getElem_drop]
  congr 3
  omega

/-- the words of a line are the words of what has been read and the words of the rest -/
theorem scanWords_run (s : List Char) (k : Nat) (hk : k ≤ s.length) :
    (allToks huginOpt s).map (tokText s) = (pureRun huginOpt s k).done.map (tokText s) ++
      scanWords (pureRun huginOpt s k).state (if (pureRun huginOpt s k).state = 0 then [] else tokText s ((pureRun huginOpt s k).start, k))
        (pureRun huginOpt s k).found (s.drop k) := by
  obtain ⟨n, hn⟩ : ∃ n, n = s.length - k := ⟨_, rfl⟩
  induction n generalizing k with
  | zero =>
    have : k = s.length := by omega
    subst this
    rw [List.drop_length, scanWords, allToks, PS.toks, List.map_append]
    congr 1
    split <;> rfl
  | succ n ih =>
    have hk' : k < s.length := by omega
    rw [ih (k + 1) hk' (by omega), pureRun]
    have hord := (pureRun_order huginOpt s k).2
    have hst := pureRun_state huginOpt s k
    have hg : s.getD k ' ' = s[k] := by rw [List.getD_eq_getElem?_getD, List.getElem?_eq_getElem hk']; rfl
    rw [hg, List.drop_eq_getElem_cons hk']
    have hqa : quoteAhead s k = (s.drop (k + 1)).any (fun c => c == '"') := rfl
    have hcases := pureStep_cases huginOpt s k s[k] _ hst
    have hsucc := fun b hb => tokText_succ s b k hb hk'
    have hself : tokText s (k, k) = [] := by simp [tokText]
    have hstart : huginOpt.starts s[k] = !isSpace s[k] := by simp [TokOpt.starts, huginOpt]
    have hq : huginOpt.quoted = true := rfl
    have ht : huginOpt.sepTokens = true := rfl
    generalize pureRun huginOpt s k = p at *
    generalize s[k] = c at *
    generalize s.drop (k + 1) = r at *
    rw [hqa, hstart] at hcases
    simp only [hq, ht] at hcases
    change _ = _ ++ scanWords _ _ _ (c :: r)
    rw [scanWords]
    have him : huginOpt.isSep c = isMark c := rfl
    rw [him] at hcases
    rcases hcases with h | h | h | h | h | h | h | h | h | h
    · obtain ⟨h0, h1, h2⟩ := h
      rw [h2, if_pos (show p.state ≠ 2 ∧ (p.found || isMark c) = true from ⟨h0, h1⟩)]
      by_cases hp : p.state = 1
      · simp [hp, hsucc k le_rfl, hself]
      · have : p.state = 0 := by omega
        simp [this, hsucc k le_rfl, hself]
    · obtain ⟨h0, h1, _, h3, h4, h5⟩ := h
      rw [h5, if_neg (show ¬ (p.state ≠ 2 ∧ (p.found || isMark c) = true) by simp [h1]), if_pos (show p.state ≠ 2 ∧ c = '"' from ⟨h0, h3⟩), if_pos h4]
      by_cases hp : p.state = 1
      · simp [hp, hsucc k le_rfl, hself]
      · have : p.state = 0 := by omega
        simp [this, hsucc k le_rfl, hself]
    · obtain ⟨h0, h1, _, h3, h4, h5⟩ := h
      rw [h5, if_neg (show ¬ (p.state ≠ 2 ∧ (p.found || isMark c) = true) by simp [h1]), if_pos (show p.state ≠ 2 ∧ c = '"' from ⟨h0, h3⟩), if_neg (show ¬ (r.any (fun d => d == '"')) = true by simp [h4])]
      by_cases hp : p.state = 1
      · simp [hp, hsucc p.start (le_of_lt (hord (by omega)))]
      · have : p.state = 0 := by omega
        simp [this]
    · obtain ⟨h0, h1, h3, h4, h5⟩ := h
      have h4 : isSpace c = false := by simpa using h4
      have h3 : c ≠ '"' := by simpa using h3
      rw [h5]
      simp [h0, h1, h3, h4, hsucc k le_rfl, hself]
    · obtain ⟨h0, h1, h3, h4, h5⟩ := h
      have h4 : isSpace c = true := by simpa using h4
      have h3 : c ≠ '"' := by simpa using h3
      rw [h5]
      simp [h0, h1, h3, h4]
    · obtain ⟨h0, h1, h3, h4, h5⟩ := h
      have h4 : isSpace c = true := by simpa using h4
      have h3 : c ≠ '"' := by simpa using h3
      rw [h5]
      simp [h0, h1, h3, h4]
    · obtain ⟨h0, h1, h3, h4, h5⟩ := h
      have h4 : isSpace c = false := by simpa using h4
      have h3 : c ≠ '"' := by simpa using h3
      rw [h5]
      simp [h0, h1, h3, h4, hsucc p.start (le_of_lt (hord (by omega)))]
    · obtain ⟨h0, h1, h2⟩ := h
      rw [h2]
      simp [h0, h1]
    · obtain ⟨h0, h1, _, h2⟩ := h
      rw [h2]
      simp [h0, h1, hsucc p.start (le_of_lt (hord (by omega)))]
    · obtain ⟨h0, h1, h3, h2⟩ := h
      have h3 : c ≠ '"' := by simpa using h3
      rw [h2]
      simp [h0, h1, h3, hsucc p.start (le_of_lt (hord (by omega)))]

theorem scanWords_eq (s : List Char) : (allToks huginOpt s).map (tokText s) = scanWords 0 [] false s := by
  rw [scanWords_run s 0 (by omega)]
  simp [pureRun]

/-- no word is empty -/
theorem scanWords_nonempty (s : List Char) : ∀ w ∈ scanWords 0 [] false s, w ≠ [] := by
  intro w hw
  rw [← scanWords_eq] at hw
  obtain ⟨q, hq, rfl⟩ := List.mem_map.mp hw
  have := (allToks_order huginOpt s).1 q hq
  unfold tokText
  rw [← List.length_pos_iff]
  simp
  omega

/-- the word begins a comment -/
def beginsComment (w : List Char) : Bool := w.head? == some '%'

/-- the words of a line up to the comment -/
def lineWords (l : List Char) : List (List Char) := (scanWords 0 [] false l).takeWhile (fun w => !beginsComment w)

theorem first_char {l : List Char} {q : Nat × Nat} {ts : List (Nat × Nat)} (h : InOrder l.length (q :: ts)) :
    ∃ c, rd (PS.flat (q :: ts)) 0 = ok q.1 ∧ rd l q.1 = ok c ∧ (c == '%') = beginsComment (tokText l q) := by
  have hq := h.1 q (by simp)
  have hl : q.1 < l.length := by omega
  refine ⟨l[q.1], rfl, rd_lt hl, ?_⟩
  unfold beginsComment tokText
  rw [List.drop_eq_getElem_cons hl, show q.2 - q.1 = (q.2 - q.1 - 1) + 1 by omega, List.take_succ_cons]
  rfl

theorem copy_first {l : List Char} {q : Nat × Nat} {ts : List (Nat × Nat)} (h : InOrder l.length (q :: ts)) :
    copyToken l (PS.flat (q :: ts)) 0 = ok (tokText l q) := copyToken_eq l (q :: ts) h 0 (by simp)

theorem inOrder_tail {n : Nat} {q : Nat × Nat} {ts : List (Nat × Nat)} (h : InOrder n (q :: ts)) : InOrder n ts :=
  ⟨fun r hr => h.1 r (by simp [hr]), (List.pairwise_cons.mp h.2).2⟩

/-- looking for the next line with words -/
theorem advance_eq (st : LexState) (l : List Char) (rest : List (List Char)) :
    st.advance (l :: rest) = if lineWords l = [] then st.advance rest else
      ok (some { file := rest, line := l, left := (allToks huginOpt l).length, bounds := PS.flat (allToks huginOpt l), readLine := false }) := by
  have hc : countTokens huginOpt l = ok (allToks huginOpt l).length := by
    rw [countTokens_eq]; exact congrArg ok (PS.toks_length _ _).symm
  rw [LexState.advance, hc, ok_bind]
  have hw : lineWords l = ((allToks huginOpt l).map (tokText l)).takeWhile (fun w => !beginsComment w) := by
    rw [lineWords, scanWords_eq]
  have hlen : (PS.flat (allToks huginOpt l)).length = 2 * (allToks huginOpt l).length := PS.flat_length _
  by_cases h0 : 0 < (allToks huginOpt l).length
  · rw [if_pos h0, tokenise_eq huginOpt l _ h0, if_pos le_rfl, List.take_of_length_le hlen.le, ok_bind]
    · have hord := allToks_order huginOpt l
      cases ht : allToks huginOpt l with
      | nil => rw [ht] at h0; simp at h0
      | cons q ts =>
        rw [ht] at hord hw
        obtain ⟨c, h1, h2, h3⟩ := first_char hord
        simp only
        rw [h1, ok_bind, h2, ok_bind, h3, hw, List.map_cons, List.takeWhile_cons]
        cases beginsComment (tokText l q) <;> simp
    · intro k hk _
      exact hlen ▸ (out_prefix _ l hk).length_le
  · have : allToks huginOpt l = [] := List.eq_nil_of_length_eq_zero (by omega)
    rw [if_neg h0, hw, this]
    simp

/-- the static variables when the tokens `ts` of the line are left -/
def inLine (rest : List (List Char)) (l : List Char) (ts : List (Nat × Nat)) (read : Bool) : LexState :=
  { file := rest, line := l, left := ts.length, bounds := PS.flat ts, readLine := read }

theorem next_inLine (rest : List (List Char)) (l : List Char) (q : Nat × Nat) (ts : List (Nat × Nat)) (h : InOrder l.length (q :: ts)) :
    (inLine rest l (q :: ts) false).nextToken =
      ok (some (tokText l q), inLine rest l ts (match ts with | [] => true | r :: _ => beginsComment (tokText l r))) := by
  unfold LexState.nextToken inLine
  simp only
  rw [if_neg (by simp), ok_bind]
  simp only
  rw [copy_first h, ok_bind]
  cases ts with
  | nil => rfl
  | cons r ts =>
    obtain ⟨c, h1, h2, h3⟩ := first_char (inOrder_tail h)
    have hd : (PS.flat (q :: r :: ts)).drop 2 = PS.flat (r :: ts) := rfl
    simp only [hd]
    rw [if_neg (by simp), h1, ok_bind, h2, ok_bind, h3]
    rfl

/-- what follows the words `ws` -/
def prependWords (ws : List (List Char)) (r : Res (List Lexeme × LexState)) : Res (List Lexeme × LexState) := do
  let (ts, st) ← r
  ok (ws.map classify ++ ts, st)

theorem prependWords_nil (r : Res (List Lexeme × LexState)) : prependWords [] r = r := by
  unfold prependWords
  cases r <;> rfl

theorem yylex_some {st st' : LexState} {w : List Char} (hw : w ≠ []) (h : st.nextToken = ok (some w, st')) :
    st.yylex = ok (some (classify w), st') := by
  unfold LexState.yylex
  rw [h, ok_bind]
  cases w with
  | nil => exact absurd rfl hw
  | cons c w => rfl

theorem lexemes_some {fuel : Nat} {st st' : LexState} {w : List Char} (hw : w ≠ []) (h : st.nextToken = ok (some w, st')) :
    st.lexemes (fuel + 1) = prependWords [w] (st'.lexemes fuel) := by
  rw [LexState.lexemes, yylex_some hw h, ok_bind]
  rfl

theorem prependWords_cons (w : List Char) (ws : List (List Char)) (r : Res (List Lexeme × LexState)) :
    prependWords [w] (prependWords ws r) = prependWords (w :: ws) r := by
  unfold prependWords
  cases r <;> rfl

/-- the rest of a line is read word by word -/
theorem lexemes_line (rest : List (List Char)) (l : List Char) (ts : List (Nat × Nat)) (h : InOrder l.length ts) (fuel : Nat)
    (hne : ∀ q ts', ts = q :: ts' → beginsComment (tokText l q) = false) (h0 : ts ≠ []) :
    ∃ ts', (inLine rest l ts false).lexemes (((ts.map (tokText l)).takeWhile (fun w => !beginsComment w)).length + fuel) =
      prependWords ((ts.map (tokText l)).takeWhile (fun w => !beginsComment w)) ((inLine rest l ts' true).lexemes fuel) := by
  induction ts with
  | nil => exact absurd rfl h0
  | cons q ts ih =>
    have hq := h.1 q (by simp)
    have hw : tokText l q ≠ [] := by
      unfold tokText
      rw [← List.length_pos_iff]
      simp
      omega
    have hn := next_inLine rest l q ts h
    rw [List.map_cons, List.takeWhile_cons, hne q ts rfl]
    simp only [Bool.not_false, if_true, List.length_cons]
    rw [show ∀ n, n + 1 + fuel = (n + fuel) + 1 by omega, lexemes_some hw hn]
    cases ts with
    | nil =>
      refine ⟨[], ?_⟩
      simp [prependWords]
    | cons r ts =>
      simp only
      by_cases hr : beginsComment (tokText l r) = true
      · refine ⟨r :: ts, ?_⟩
        rw [List.map_cons, List.takeWhile_cons, hr]
        simp
      · have hr : beginsComment (tokText l r) = false := by simpa using hr
        obtain ⟨ts', ih⟩ := ih (inOrder_tail h) (by rintro q' t' he; cases he; exact hr) (by simp)
        refine ⟨ts', ?_⟩
        rw [hr, ih, prependWords_cons]

theorem nextToken_skip (st : LexState) (l : List Char) (rest : List (List Char)) (h : st.readLine = true) (hf : st.file = l :: rest)
    (hl : lineWords l = []) : st.nextToken = ({ st with file := rest } : LexState).nextToken := by
  have hadv : ∀ (st' : LexState) f, st.advance f = st'.advance f := by
    intro st' f
    induction f with
    | nil => rfl
    | cons l f ih => rw [advance_eq, advance_eq, ih]
  unfold LexState.nextToken
  simp only [h, hf, if_true]
  rw [advance_eq, if_pos hl, hadv { st with file := rest, readLine := true }]

theorem nextToken_line (st : LexState) (l : List Char) (rest : List (List Char)) (h : st.readLine = true) (hf : st.file = l :: rest)
    (hl : lineWords l ≠ []) : st.nextToken = (inLine rest l (allToks huginOpt l) false).nextToken := by
  unfold LexState.nextToken
  simp only [h, hf, if_true]
  rw [advance_eq, if_neg hl]
  rfl

theorem lexemes_congr {st st' : LexState} (h : st.nextToken = st'.nextToken) (fuel : Nat) : st.lexemes (fuel + 1) = st'.lexemes (fuel + 1) := by
  unfold LexState.lexemes LexState.yylex
  rw [h]

/-- the lexemes of any file are the words of its lines -/
theorem lexemes_file (lines : List (List Char)) (st : LexState) (h : st.readLine = true) (hf : st.file = lines) (extra : Nat) :
    ∃ e, st.lexemes ((lines.flatMap lineWords).length + extra + 1) = ok ((lines.flatMap lineWords).map classify, e) ∧
      e.readLine = true ∧ e.file = [] ∧ e.left = 0 := by
  induction lines generalizing st with
  | nil =>
    refine ⟨{ st with file := [], bounds := [], left := 0 }, ?_, h, rfl, rfl⟩
    unfold LexState.lexemes LexState.yylex LexState.nextToken
    simp only [h, hf, if_true]
    rfl
  | cons l rest ih =>
    by_cases hl : lineWords l = []
    · obtain ⟨e, h1, h2⟩ := ih { st with file := rest } h rfl
      refine ⟨e, ?_, h2⟩
      rw [List.flatMap_cons, hl, List.nil_append, lexemes_congr (nextToken_skip st l rest h hf hl), h1]
    · have hw : lineWords l = ((allToks huginOpt l).map (tokText l)).takeWhile (fun w => !beginsComment w) := by
        rw [lineWords, scanWords_eq]
      have hne : allToks huginOpt l ≠ [] := by
        intro h0
        rw [hw, h0] at hl
        exact hl rfl
      obtain ⟨ts', h1⟩ := lexemes_line rest l (allToks huginOpt l) (allToks_order huginOpt l) ((rest.flatMap lineWords).length + extra + 1) (by
        intro q ts' hq
        by_contra hc
        apply hl
        rw [hw, hq, List.map_cons, List.takeWhile_cons]
        simp [hc]) hne
      obtain ⟨e, h2, h3⟩ := ih (inLine rest l ts' true) rfl rfl
      refine ⟨e, ?_, h3⟩
      rw [← hw] at h1
      rw [List.flatMap_cons, List.length_append, show (lineWords l).length + (rest.flatMap lineWords).length + extra + 1 =
        ((lineWords l).length + ((rest.flatMap lineWords).length + extra)) + 1 by omega,
        lexemes_congr (nextToken_line st l rest h hf hl)]
      rw [show ((lineWords l).length + ((rest.flatMap lineWords).length + extra)) + 1 =
        (lineWords l).length + ((rest.flatMap lineWords).length + extra + 1) by omega, h1, h2]
      unfold prependWords
      rw [ok_bind, List.map_append]

end Nip
