import Verif.TokensRun

/-! # Properties C41 to C43: the tokeniser -/

namespace Nip

namespace Props

open Res Spec

/-- quoting, the separator `,` as a token of its own, and whitespace as separator -/
def allOptions : TokOpt := { quoted := true, separators := some [','], sepTokens := true, wspace := true }

/-- the same but separators are skipped -/
def skipSeparators : TokOpt := { quoted := true, separators := some [','], sepTokens := false, wspace := true }

/-- **C41.**  For every string and all options, asking for as many tokens as were counted stays inside the array and gives all of them:
two indices for each token, in ascending order and inside the string.  (If there is no token, no array is made.) -/
theorem C41_counted_tokens (o : TokOpt) (s : List Char) :
    ∃ n, countTokens o s = ok n ∧
      (n = 0 → tokenise o (some s) n = ok none) ∧
      (0 < n → ∃ a, tokenise o (some s) n = ok (some a) ∧ a.length = 2 * n ∧ (pairs a).length = n ∧ InOrder s.length (pairs a)) := by
  refine ⟨(allToks o s).length, ?_, ?_, ?_⟩
  · rw [countTokens_eq]
    exact congrArg ok (PS.toks_length _ _).symm
  · intro h
    rw [h]
    rfl
  · intro h
    have hlen : (PS.flat (allToks o s)).length = 2 * (allToks o s).length := PS.flat_length _
    refine ⟨PS.flat (allToks o s), ?_, hlen, by rw [pairs_flat], by rw [pairs_flat]; exact allToks_order o s⟩
    rw [tokenise_eq o s _ h, if_pos le_rfl, List.take_of_length_le hlen.le]
    intro k hk _
    exact hlen ▸ (out_prefix o s hk).length_le

example : countTokens allOptions "ab \"c d\",e".toList = ok 4 := by decide
example : tokenise allOptions (some "ab \"c d\",e".toList) 4 = ok (some [0, 2, 3, 8, 8, 9, 9, 10]) := by decide +kernel

/-- **C41.**  Asking for more tokens than there are is refused, and does no harm. -/
theorem C41_too_many (o : TokOpt) (s : List Char) (count n : Nat) (hc : countTokens o s = ok count) (hn : count < n) :
    tokenise o (some s) n = ok none := by
  rw [countTokens_eq, ok.injEq] at hc
  have hlen : (allToks o s).length = count := (PS.toks_length _ _).trans hc
  rw [tokenise_eq o s n (by omega), if_neg (by omega)]
  intro k hk _
  have := (out_prefix o s (k := k + 1) hk).length_le
  rw [PS.flat_length] at this
  omega

example : tokenise allOptions (some "ab \"c d\",e".toList) 5 = ok none := by decide +kernel

/-- **C41.**  Splitting the string at the indices found copies the words without leaving the string or the array. -/
theorem C41_split (o : TokOpt) (s : List Char) (count n : Nat) (a : List Nat) (hc : countTokens o s = ok count)
    (ha : tokenise o (some s) count = ok (some a)) (hn : n ≤ count) :
    splitWords s a n = ok (((pairs a).take n).map (fun q => (s.drop q.1).take (q.2 - q.1))) := by
  rw [countTokens_eq, ok.injEq] at hc
  have hlen : (allToks o s).length = count := (PS.toks_length _ _).trans hc
  have hfl : (PS.flat (allToks o s)).length = 2 * (allToks o s).length := PS.flat_length _
  by_cases h0 : count = 0
  · subst h0; cases ha
  rw [tokenise_eq o s count (by omega), if_pos (by omega), List.take_of_length_le (by omega), ok.injEq, Option.some.injEq] at ha
  · rw [← ha, pairs_flat]
    exact splitWords_eq s _ (allToks_order o s) n (by omega)
  · intro k hk _
    have := (out_prefix o s (k := k + 1) hk).length_le
    omega

example : splitWords "ab \"c d\",e".toList [0, 2, 3, 8, 8, 9, 9, 10] 4 =
    ok ["ab".toList, "\"c d\"".toList, ",".toList, "e".toList] := by decide +kernel

/-- **C42**, the claim: asking for `n` of the tokens gives the first `n` of them. -/
def FewerAreSafe (o : TokOpt) (s : List Char) (n : Nat) : Prop :=
  ∀ count a, countTokens o s = ok count → tokenise o (some s) count = ok (some a) → 0 < n → n ≤ count →
    tokenise o (some s) n = ok (some (a.take (2 * n)))

theorem fewer_of_fits (o : TokOpt) (s : List Char) (n : Nat)
    (H : ∀ a, tokenise o (some s) (allToks o s).length = ok (some a) → a = PS.flat (allToks o s) → n ≤ (allToks o s).length →
      ∀ k < s.length, (pureRun o s k).out.length < 2 * n → (pureRun o s (k + 1)).out.length ≤ 2 * n) : FewerAreSafe o s n := by
  intro count a hc ha h0 hn
  rw [countTokens_eq, ok.injEq] at hc
  have hlen : (allToks o s).length = count := (PS.toks_length _ _).trans hc
  have hfl : (PS.flat (allToks o s)).length = 2 * (allToks o s).length := PS.flat_length _
  have ha' := ha
  rw [tokenise_eq o s count (by omega), if_pos (by omega), List.take_of_length_le (by omega), ok.injEq, Option.some.injEq] at ha'
  · rw [tokenise_eq o s n h0 (H a (by rw [hlen]; exact ha) ha'.symm (by omega)), if_pos (by omega), ha']
  · intro k hk _
    have := (out_prefix o s (k := k + 1) hk).length_le
    omega

/-- **C42** (partial).  It holds if the token after the last one wanted does not begin at the very place where that one ends. -/
theorem C42_fewer_partial (o : TokOpt) (s : List Char) (n : Nat)
    (hgap : ∀ count a, countTokens o s = ok count → tokenise o (some s) count = ok (some a) → n < count →
      a.getD (2 * n - 1) 0 ≠ a.getD (2 * n) 0) : FewerAreSafe o s n := by
  apply fewer_of_fits
  intro a ha hfl hn
  apply step_fits
  intro h
  rw [PS.flat_length] at h
  rw [← hfl]
  refine hgap _ a ?_ ha (by omega)
  rw [countTokens_eq]
  exact congrArg ok (PS.toks_length _ _).symm

/-- **C42** (partial).  Without quoting, and if separators are not tokens, it always holds. -/
theorem C42_plain_partial (o : TokOpt) (s : List Char) (n : Nat) (hq : o.quoted = false) (ht : o.sepTokens = false) :
    FewerAreSafe o s n := by
  apply fewer_of_fits
  intro a _ _ _ k _ hlt
  have := (step_fits_simple o s hq ht k).1
  omega

example : tokenise allOptions (some "ab cd,e".toList) 1 = ok (some [0, 2]) := by decide +kernel
example : [0, 2, 3, 5, 5, 6, 6, 7].getD (2 * 1 - 1) 0 ≠ [0, 2, 3, 5, 5, 6, 6, 7].getD (2 * 1) 0 := by decide
example : tokenise { quoted := false, separators := some [','], sepTokens := false, wspace := true } (some "ab,cd e".toList) 2 =
    ok (some [0, 2, 3, 5]) := by decide +kernel

/-- **C42** is false in general: a separator or a quote right after the last token wanted makes the function write behind the array. -/
theorem C42_refuted : ¬ ∀ o s n, FewerAreSafe o s n := by
  intro h
  have h1 : tokenise allOptions (some "ab,c".toList) 1 = ub := by decide +kernel
  have h2 := h allOptions "ab,c".toList 1 3 [0, 2, 2, 3, 3, 4] (by decide +kernel) (by decide +kernel) (by decide) (by decide)
  rw [show ((1 : Nat) : Int) = 1 from rfl, h1] at h2
  cases h2

/-- **C43** (partial).  If no separator occurs inside quotes, every token is a single separator, a quoted text, or a longest piece of text
without separators and whitespace, and no character is lost. -/
theorem C43_tokens_partial (o : TokOpt) (s : List Char) (hsep : ∀ i < s.length, Inside o s i → ¬ Separator o (charAt s i)) :
    ∃ n, countTokens o s = ok n ∧ (n = 0 → GoodTokens o s []) ∧
      (0 < n → ∃ a, tokenise o (some s) n = ok (some a) ∧ GoodTokens o s (pairs a)) := by
  have hfl : (PS.flat (allToks o s)).length = 2 * (allToks o s).length := PS.flat_length _
  refine ⟨(allToks o s).length, ?_, ?_, ?_⟩
  · rw [countTokens_eq]
    exact congrArg ok (PS.toks_length _ _).symm
  · intro h
    rw [← List.eq_nil_of_length_eq_zero h]
    exact allToks_good o s hsep
  · intro h
    refine ⟨PS.flat (allToks o s), ?_, by rw [pairs_flat]; exact allToks_good o s hsep⟩
    rw [tokenise_eq o s _ h, if_pos le_rfl, List.take_of_length_le hfl.le]
    intro k hk _
    exact hfl ▸ (out_prefix o s hk).length_le

/-- The hypothesis is met by `"a b",c`, where a blank is inside the quotes and a separator follows them. -/
example : let s := "\"a b\",c".toList
    (∀ i < s.length, Inside allOptions s i → ¬ Separator allOptions (charAt s i)) ∧ Inside allOptions s 2 ∧
      tokenise allOptions (some s) 3 = ok (some [0, 5, 5, 6, 6, 7]) := by
  have hs : ∀ c, Separator allOptions c ↔ c = ',' := by intro c; simp [Separator, allOptions]
  have hi : ¬ Inside allOptions "\"a b\",c".toList 5 := by
    intro h
    rw [inside_succ] at h
    rcases h with h | h
    · exact h.2.1 (by decide)
    · obtain ⟨j, h4, h7, h⟩ := h.2.2.2.2
      have h7 : j < 7 := h7
      have : j = 5 ∨ j = 6 := by omega
      rcases this with rfl | rfl <;> exact absurd h (by decide)
  refine ⟨?_, ?_, by decide +kernel⟩
  · intro i h7 hin hsep
    rw [hs] at hsep
    have h7 : i < 7 := h7
    have : i = 0 ∨ i = 1 ∨ i = 2 ∨ i = 3 ∨ i = 4 ∨ i = 5 ∨ i = 6 := by omega
    rcases this with rfl | rfl | rfl | rfl | rfl | rfl | rfl <;> first | exact hi hin | exact absurd hsep (by decide)
  · refine (inside_succ _ _ _).2 (Or.inl ⟨(inside_succ _ _ _).2 (Or.inr ⟨fun h => h, rfl, by decide, ?_, 4, by decide, by decide, by decide⟩),
      by decide, by decide⟩)
    rw [hs]; decide

/-- **C43** (partial).  In particular this holds for every string if quoting is off. -/
theorem C43_unquoted_partial (o : TokOpt) (s : List Char) (hq : o.quoted = false) :
    ∃ n, countTokens o s = ok n ∧ (n = 0 → GoodTokens o s []) ∧
      (0 < n → ∃ a, tokenise o (some s) n = ok (some a) ∧ GoodTokens o s (pairs a)) :=
  C43_tokens_partial o s (fun i _ h => absurd (inside_quoted o s i h) (by rw [hq]; decide))

/-- **C43** is false in general: a separator inside quotes is remembered until the quotes are closed, and then swallows a character of
plain text. -/
theorem C43_refuted : ∃ o s a, countTokens o s = ok 2 ∧ tokenise o (some s) 2 = ok (some a) ∧ ¬ GoodTokens o s (pairs a) := by
  refine ⟨skipSeparators, "\"a,b\"cd".toList, [0, 5, 6, 7], by decide +kernel, by decide +kernel, ?_⟩
  rintro ⟨_, h⟩
  obtain ⟨q, ⟨hq, hqi⟩, _⟩ := h 5 (by decide) (by
    refine Or.inr (Or.inr ⟨?_, ?_, ?_, ?_⟩)
    · simp only [Inside, charAt, skipSeparators]
      simp
      intro _ _ x h4 h7
      have : x = 5 ∨ x = 6 := by omega
      rcases this with rfl | rfl <;> decide
    · simp [Separator, charAt, skipSeparators]
    · unfold Blank; decide
    · simp [charAt])
  simp only [pairs, List.mem_cons, List.not_mem_nil, or_false] at hq
  unfold Contains at hqi
  rcases hq with rfl | rfl <;> simp at hqi

end Props

end Nip
