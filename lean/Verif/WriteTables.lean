import Verif.WriteText
import Verif.PotentialLemmas

/-! # The tables printed by `write_model` as lexemes -/

namespace Nip

open Res Spec

variable {K : Type} [Field K] [LinearOrder K]

/-- numbers without parentheses -/
def Grouped.flat : List (List Char) → Grouped
  | [] => .nil
  | w :: ws => .num w (flat ws)

/-- rows of numbers, each in parentheses -/
def Grouped.rows : List (List (List Char)) → Grouped
  | [] => .nil
  | r :: rs => .group (Grouped.flat r) (rows rs)

theorem flat_lexemes (ws : List (List Char)) : (Grouped.flat ws).lexemes = ws.map .number := by
  induction ws with
  | nil => rfl
  | cons w ws ih => simp [Grouped.flat, Grouped.lexemes, ih]

theorem flat_words (ws : List (List Char)) : (Grouped.flat ws).words = ws := by
  induction ws with
  | nil => rfl
  | cons w ws ih => simp [Grouped.flat, Grouped.words, ih]

theorem rows_lexemes (rs : List (List (List Char))) : (Grouped.rows rs).lexemes = rs.flatMap (fun r => .mark '(' :: (r.map Lexeme.number ++ [.mark ')'])) := by
  induction rs with
  | nil => rfl
  | cons r rs ih => simp [Grouped.rows, Grouped.lexemes, ih, flat_lexemes]

theorem rows_words (rs : List (List (List Char))) : (Grouped.rows rs).words = rs.flatten := by
  induction rs with
  | nil => rfl
  | cons r rs ih => simp [Grouped.rows, Grouped.words, ih, flat_words]

/-- the first `k` rows of `n` words each -/
def rowsOf (n : Nat) (words : List (List Char)) (k : Nat) : List (List (List Char)) := (List.range k).map (fun i => (words.drop (i * n)).take n)

theorem rowsOf_flatten (n : Nat) (words : List (List Char)) (k : Nat) : (rowsOf n words k).flatten = words.take (k * n) := by
  induction k with
  | zero => simp [rowsOf]
  | succ k ih =>
    unfold rowsOf at ih ⊢
    rw [List.range_succ, List.map_append, List.flatten_append, ih, Nat.succ_mul, List.take_add]
    simp

/-- the lexemes printed for the number at place `i` in a table with several parents -/
def cellLexemes (multi : Bool) (n : Nat) (words : List (List Char)) (i : Nat) : List Lexeme :=
  (if multi = true ∧ 0 < i ∧ i % n = 0 then [.mark ')', .mark '('] else []) ++ [.number (words.getD i [])]

theorem cells_single (n : Nat) (words : List (List Char)) {k : Nat} (hk : k ≤ words.length) :
    (List.range k).flatMap (cellLexemes false n words) = (words.take k).map .number := by
  induction k with
  | zero => simp
  | succ k ih =>
    rw [List.range_succ, List.flatMap_append, ih (by omega), List.take_succ_eq_append_getElem (by omega), List.map_append]
    simp [cellLexemes, List.getElem?_eq_getElem (show k < words.length by omega)]

theorem cells_row (n : Nat) (words : List (List Char)) (q : Nat) {i : Nat} (hi : i ≤ n) (hl : q * n + i ≤ words.length) :
    (List.range' (q * n) i).flatMap (cellLexemes true n words) =
      (if 0 < q ∧ 0 < i then [.mark ')', .mark '('] else []) ++ ((words.drop (q * n)).take i).map .number := by
  induction i with
  | zero => simp
  | succ i ih =>
    rw [List.range'_concat, List.flatMap_append, ih (by omega) (by omega)]
    have hlt : i < (words.drop (q * n)).length := by rw [List.length_drop]; omega
    rw [List.take_succ_eq_append_getElem hlt, List.map_append, List.append_assoc, List.getElem_drop]
    have hg : words.getD (q * n + i) [] = words[q * n + i] := by simp [List.getElem?_eq_getElem (show q * n + i < words.length by omega)]
    by_cases h0 : i = 0
    · subst h0
      have hn : 0 < n := by omega
      simp only [List.flatMap_cons, List.flatMap_nil, cellLexemes, Nat.one_mul, Nat.mul_zero, Nat.add_zero, List.append_nil, Nat.mul_mod_left] at hg ⊢
      rw [hg]
      rcases Nat.eq_zero_or_pos q with rfl | hq
      · simp
      · simp [hq, hn]
    · have hmod : ¬ ((q * n + i) % n = 0) := by
        rw [Nat.mul_comm, Nat.mul_add_mod, Nat.mod_eq_of_lt (by omega)]
        exact h0
      simp only [List.flatMap_cons, List.flatMap_nil, cellLexemes, Nat.one_mul, List.append_nil, hmod, and_false, if_false, hg, List.nil_append]
      have : 0 < i := by omega
      simp [this]

theorem cells_multi {n : Nat} (hn : 0 < n) (words : List (List Char)) {q : Nat} (hq : 0 < q) (hl : q * n ≤ words.length) :
    .mark '(' :: ((List.range (q * n)).flatMap (cellLexemes true n words) ++ [.mark ')']) = (Grouped.rows (rowsOf n words q)).lexemes := by
  rw [rows_lexemes]
  unfold rowsOf
  induction q with
  | zero => omega
  | succ q ih =>
    rw [List.range_succ, List.map_append, List.flatMap_append, Nat.succ_mul, List.range_eq_range', List.range'_append_1 .. |>.symm, List.flatMap_append]
    rw [show 0 + q * n = q * n by omega, cells_row n words q (le_refl n) (by rw [Nat.succ_mul] at hl; exact hl)]
    rcases Nat.eq_zero_or_pos q with rfl | hq'
    · simp
    · have := ih hq' (by rw [Nat.succ_mul] at hl; omega)
      rw [← this, List.range_eq_range']
      simp [hq', hn]

/-- The words printed for numbers can be read and are short. -/
def Formatted (fmt : K → List Char) (l : List K) : Prop := ∀ a ∈ l, IsNumber (fmt a) ∧ (fmt a).length ≤ 40

/-- the description of a prior -/
def printedPrior (fmt : K → List Char) (v : NodeRec) (prior : List K) : PotText :=
  { child := v.symbol, parents := none, data := some (Grouped.flat (prior.map fmt)) }

theorem printPrior_laid {fmt : K → List Char} {v : NodeRec} (hv : v.Readable) {prior : List K} (hf : Formatted fmt prior)
    {out : List Char} {ts : List Lexeme} (h : Laid 0 out ts) :
    ∃ out', printPrior fmt v prior.length (some prior) out = ok out' ∧ Laid 0 out' (ts ++ (printedPrior fmt v prior).lexemes) := by
  have hs := hv.nameShort
  have ln : (Lexeme.name v.symbol).Legal := hv.name
  have s1 := h.line (by decide) gap_nil
  have s2 := s1.emitLine (b := [(.key .potential, [' ']), (.mark '(', []), (.name v.symbol, []), (.mark ')', [])]) (by lexemes [ln]) (by apart []) (by short) gap_nil
  have s3 := s2.emitLine (b := [(.mark '{', [])]) (by lexemes []) (by apart []) (by short) (g := [' ', ' ', ' ', ' ']) (by lexemes [])
  have s4 := s3.emit (b := [(.key .data, [' ']), (.mark '=', [' ']), (.mark '(', [' '])]) (by lexemes []) (by apart [])
  generalize hts : ts ++ [Lexeme.key .potential, .mark '(', .name v.symbol, .mark ')', .mark '{', .key .data, .mark '=', .mark '('] = ts4
  generalize ho : out ++ "\npotential (".toList ++ v.symbol ++ ")\n{\n    data = ( ".toList = out4
  have s5 : Laid 13 out4 ts4 := by
    refine (s4.weaken (by short)).of_eq ?_ ?_
    · rw [← ho]; simp [itemsText, Lexeme.spell, spell_potential, spell_data]
    · rw [← hts]; simp
  obtain ⟨out5, e5, s6⟩ := loop_inv (P := fun j o => Laid (13 + 42 * (if j = 0 then 0 else (j - 1) % 7 + 1)) o (ts4 ++ ((prior.map fmt).take j).map .number)) (n := prior.length) (s := out4)
    (f := fun j out => do
      let out := if 0 < j ∧ j % elementsPerLine = 0 then out ++ "\n             ".toList else out
      let a ← rd prior j
      ok (out ++ fmt a ++ "  ".toList)) (by simpa using s5) (by
      intro j hj o hlay
      rw [rd_lt hj]
      refine ⟨_, rfl, ?_⟩
      have hm := hf _ (List.getElem_mem hj)
      have l1 : (Lexeme.number (fmt prior[j])).Legal := hm.1
      have l2 := hm.2
      have hj' : j < (prior.map fmt).length := by simpa using hj
      have etake : ((prior.map fmt).take (j + 1)).map Lexeme.number = ((prior.map fmt).take j).map .number ++ [.number (fmt prior[j])] := by
        rw [List.take_succ_eq_append_getElem hj', List.map_append, List.getElem_map, List.map_singleton]
      by_cases hb : 0 < j ∧ j % elementsPerLine = 0
      · rw [if_pos hb]
        have hb7 : j % 7 = 0 := hb.2
        have q1 := (hlay.line (by split <;> omega) (g := List.replicate 13 ' ') (by lexemes [List.replicate])).emit (b := [(.number (fmt prior[j]), [' ', ' '])])
          (by lexemes [l1]) (by apart [])
        refine (q1.weaken ?_).of_eq ?_ ?_
        · rw [if_neg (by omega), Nat.add_sub_cancel, hb7]
          short
        · simp [itemsText, Lexeme.spell, List.replicate]
        · rw [etake, List.append_assoc]; rfl
      · rw [if_neg hb]
        have q1 := hlay.emit (b := [(.number (fmt prior[j]), [' ', ' '])]) (by lexemes [l1]) (by apart [])
        refine (q1.weaken ?_).of_eq ?_ ?_
        · have hb7 : ¬ (0 < j ∧ j % 7 = 0) := hb
          rw [if_neg (by omega : ¬ j + 1 = 0), Nat.add_sub_cancel]
          have : (if j = 0 then 0 else (j - 1) % 7 + 1) ≤ j % 7 := by split <;> omega
          simp only [itemsText, List.flatMap_cons, List.flatMap_nil, List.append_nil, Lexeme.spell, List.length_append, List.length_cons, List.length_nil]
          omega
        · simp [itemsText, Lexeme.spell]
        · rw [etake, List.append_assoc]; rfl)
  rw [List.take_of_length_le (by simp)] at s6
  have s7 := s6.emitLine (b := [(.mark ')', []), (.mark ';', [])]) (by lexemes []) (by apart [])
    (by
      have : (if prior.length = 0 then 0 else (prior.length - 1) % 7 + 1) ≤ 7 := by split <;> omega
      simp only [itemsText, List.flatMap_cons, List.flatMap_nil, List.append_nil, Lexeme.spell, List.length_append, List.length_cons, List.length_nil]
      omega) gap_nil
  have s8 := s7.emitLine (b := [(.mark '}', [])]) (by lexemes []) (by apart []) (by short) gap_nil
  refine ⟨_, ?_, (s8.weaken (by simp)).of_eq (ts' := _) rfl ?_⟩
  · unfold printPrior
    simp only [ho]
    rw [e5, ok_bind]
    simp [itemsText, Lexeme.spell]
  · rw [← hts]; simp [printedPrior, PotText.lexemes, parentLexemes, dataLexemes, flat_lexemes]

/-- the comment with the states of the parents -/
theorem printStates_comment {parents : List NodeRec} (hp : ∀ u ∈ parents, u.Readable) {temp : List Nat} (hl : temp.length = parents.length + 1)
    (ht : ∀ x (hx : x < parents.length), temp[x + 1] < parents[x].states.length) (out : List Char) :
    ∃ w, printStates parents temp out = ok (out ++ w) ∧ '\n' ∉ w ∧ w.length ≤ 82 * parents.length := by
  obtain ⟨o, e, w, rfl, h1, h2⟩ := loopDown_inv (P := fun x o => ∃ w, o = out ++ w ∧ '\n' ∉ w ∧ w.length ≤ 82 * (parents.length - x)) (n := parents.length) (s := out)
    (f := fun x out => do
      let u ← rd parents x
      let i ← rd temp (x + 1)
      let s ← rd u.states i
      ok (out ++ u.symbol ++ "=".toList ++ s ++ " ".toList)) ⟨[], by simp, by simp, by simp⟩ (by
      rintro x hx o ⟨w, rfl, h1, h2⟩
      rw [rd_lt hx, ok_bind, rd_lt (show x + 1 < temp.length by omega), ok_bind, rd_lt (ht x hx)]
      refine ⟨_, rfl, w ++ parents[x].symbol ++ ['='] ++ parents[x].states[temp[x + 1]]'(ht x hx) ++ [' '], by simp, ?_, ?_⟩
      · have hr := hp _ (List.getElem_mem hx)
        have := (isName_clean hr.name.1).1.2
        have := (hr.states _ (List.getElem_mem (ht x hx))).1.2
        simp [*]
      · have hr := hp _ (List.getElem_mem hx)
        have := hr.nameShort
        have := hr.statesShort _ (List.getElem_mem (ht x hx))
        simp only [List.length_append, List.length_cons, List.length_nil]
        omega)
  exact ⟨w, e, h1, by simpa using h2⟩

/-- the description of a table -/
def printedTable (fmt : K → List Char) (v : NodeRec) (card : Nat) (parents : List NodeRec) (data : List K) : PotText :=
  { child := v.symbol, parents := some (parents.reverse.map (fun u => u.symbol))
    data := some (if 1 < parents.length then Grouped.rows (rowsOf card (data.map fmt) (data.length / card)) else Grouped.flat (data.map fmt)) }

/-- the first line of a table -/
theorem tableHead_laid {v : NodeRec} (hv : v.Readable) {parents : List NodeRec} (hp : ∀ u ∈ parents, u.Readable) (hpos : 0 < parents.length) (hmany : parents.length ≤ 100)
    {out : List Char} {ts : List Lexeme} (h : Laid 0 out ts) :
    ∃ out', loopDown (parents.length - 1) (fun j out => do
        let u ← rd parents (j + 1)
        ok (out ++ u.symbol ++ " ".toList)) (out ++ "\npotential (".toList ++ v.symbol ++ " | ".toList) = ok out' ∧
      Laid 12 (out' ++ parents[0].symbol ++ ")\n{ \n    data = (".toList)
        (ts ++ ([Lexeme.key .potential, .mark '(', .name v.symbol] ++ parentLexemes (some (parents.reverse.map (fun u => u.symbol))) ++
          [.mark ')', .mark '{', .key .data, .mark '=', .mark '('])) := by
  have hs := hv.nameShort
  have ln : (Lexeme.name v.symbol).Legal := hv.name
  have s1 := h.line (by decide) gap_nil
  have s2 := s1.emit (b := [(.key .potential, [' ']), (.mark '(', []), (.name v.symbol, [' ']), (.mark '|', [' '])]) (by lexemes [ln]) (by apart [])
  generalize hts : ts ++ [Lexeme.key .potential, .mark '(', .name v.symbol, .mark '|'] = ts2
  generalize ho : out ++ "\npotential (".toList ++ v.symbol ++ " | ".toList = out2
  have s3 : Laid 60 out2 ts2 := by
    refine (s2.weaken (by short)).of_eq ?_ ?_
    · rw [← ho]; simp [itemsText, Lexeme.spell, spell_potential]
    · rw [← hts]; simp
  obtain ⟨out3, e3, s4⟩ := loopDown_inv (P := fun j o => Laid (60 + 41 * (parents.length - 1 - j)) o (ts2 ++ ((parents.drop (j + 1)).reverse.map (fun u => Lexeme.name u.symbol))))
    (n := parents.length - 1) (s := out2)
    (f := fun j out => do
      let u ← rd parents (j + 1)
      ok (out ++ u.symbol ++ " ".toList)) (by
        rw [List.drop_eq_nil_of_le (by omega)]
        simpa using s3) (by
      intro j hj o hlay
      have hj' : j + 1 < parents.length := by omega
      rw [rd_lt hj']
      refine ⟨_, rfl, ?_⟩
      have hr := hp _ (List.getElem_mem hj')
      have l1 : (Lexeme.name parents[j + 1].symbol).Legal := hr.name
      have l2 := hr.nameShort
      have q1 := hlay.emit (b := [(.name parents[j + 1].symbol, [' '])]) (by lexemes [l1]) (by apart [])
      refine (q1.weaken ?_).of_eq ?_ ?_
      · short
      · simp [itemsText, Lexeme.spell]
      · rw [List.drop_eq_getElem_cons hj', List.reverse_cons, List.map_append, ← List.append_assoc]
        rfl)
  refine ⟨out3, e3, ?_⟩
  have hr := hp _ (List.getElem_mem hpos)
  have l1 : (Lexeme.name parents[0].symbol).Legal := hr.name
  have l2 := hr.nameShort
  have s5 := s4.emitLine (b := [(.name parents[0].symbol, []), (.mark ')', [])]) (by lexemes [l1]) (by apart []) (by short) gap_nil
  have s6 := s5.emitLine (b := [(.mark '{', [' '])]) (by lexemes []) (by apart []) (by short) (g := [' ', ' ', ' ', ' ']) (by lexemes [])
  have s7 := s6.emit (b := [(.key .data, [' ']), (.mark '=', [' ']), (.mark '(', [])]) (by lexemes []) (by apart [])
  refine (s7.weaken (by short)).of_eq ?_ ?_
  · simp [itemsText, Lexeme.spell, spell_data]
  · have hd : parents = parents[0] :: parents.drop 1 := by
      conv_lhs => rw [← List.drop_zero (l := parents), List.drop_eq_getElem_cons hpos]
    have hrev : parents.reverse.map (fun u => Lexeme.name u.symbol) = (parents.drop 1).reverse.map (fun u => Lexeme.name u.symbol) ++ [.name parents[0].symbol] := by
      conv_lhs => rw [hd]
      rw [List.reverse_cons, List.map_append]
      rfl
    rw [← hts, parentLexemes, List.map_map, show (Lexeme.name ∘ fun u : NodeRec => u.symbol) = fun u => Lexeme.name u.symbol from rfl, hrev]
    simp only [List.map_cons, List.map_nil, List.append_assoc, List.cons_append, List.nil_append, Nat.zero_add]

/-- the numbers of a table, `src/nip.c:444-468` -/
def tableCells (fmt : K → List Char) (card : Nat) (parents : List NodeRec) (p : Potential K) (j : Nat) (st : List Char × Nat × List Nat) : Res (List Char × Nat × List Nat) := do
  let i ← modC j card
  let st ← (if 0 < j ∧ (i = 0 ∨ (elementsPerLine < card ∧ st.2.1 % elementsPerLine = 0)) then
    if i = 0 then do
      let out := if 1 < parents.length then st.1 ++ ")(".toList else st.1
      let out := out ++ " % ".toList
      let temp ← Potential.inverseMapping p.card p.size (j - 1) st.2.2
      let out ← printStates parents temp out
      ok (out ++ "\n            ".toList, 0, temp)
    else ok (st.1 ++ "\n            ".toList, 0, st.2.2)
  else ok st)
  let a ← rd p.data j
  ok (st.1 ++ " ".toList ++ fmt a ++ " ".toList, st.2.1 + 1, st.2.2)

theorem tableCells_laid {fmt : K → List Char} {card : Nat} (hcard : 0 < card) {parents : List NodeRec} (hp : ∀ u ∈ parents, u.Readable) (hmany : parents.length ≤ 100)
    {p : Potential K} (hw : p.Wf) (hpc : p.card = card :: parents.map (fun u => u.states.length)) (hf : Formatted fmt p.data)
    {out : List Char} {ts : List Lexeme} (h : Laid 13 out ts) :
    ∃ o y t, loop p.size (tableCells fmt card parents p) (out, 0, p.card) = ok (o, y, t) ∧
      Laid 400 o (ts ++ (List.range p.data.length).flatMap (cellLexemes (decide (1 < parents.length)) card (p.data.map fmt))) := by
  have hbig : ∀ {k : Nat}, k ≤ 309 → k + 2 + 1 + (1 + 82 * parents.length) + 1 < 9999 := by intro k hk; omega
  obtain ⟨⟨o, y, t⟩, e, ⟨hy, _⟩, _, h3⟩ := loop_inv
    (P := fun j (st : List Char × Nat × List Nat) => (st.2.1 ≤ 7 ∧ (j = 0 → st.2.1 = 0) ∧ (0 < j → card ≤ 7 → st.2.1 = (j - 1) % card + 1)) ∧ st.2.2.length = p.card.length ∧
      Laid (13 + 42 * st.2.1) st.1 (ts ++ (List.range j).flatMap (cellLexemes (decide (1 < parents.length)) card (p.data.map fmt))))
    (n := p.size) (s := (out, 0, p.card)) (f := tableCells fmt card parents p) ⟨⟨by simp, by simp, by simp⟩, rfl, by simpa using h⟩ (by
      rintro j hj ⟨o, y, t⟩ ⟨⟨hy, hy0, hyj⟩, ht, hlay⟩
      simp only at hy hy0 hyj ht hlay
      have hj : j < p.data.length := hj
      have hm := hf _ (List.getElem_mem hj)
      have l1 : (Lexeme.number (fmt p.data[j])).Legal := hm.1
      have l2 := hm.2
      have hget : (p.data.map fmt).getD j [] = fmt p.data[j] := by simp [List.getElem?_eq_getElem hj]
      have cell : ∀ {k : Nat} {o' : List Char} {ts' : List Lexeme}, Laid k o' ts' → Laid (k + 42) (o' ++ " ".toList ++ fmt p.data[j] ++ " ".toList) (ts' ++ [.number (fmt p.data[j])]) := by
        intro k o' ts' hl
        have q := (hl.space (g := [' ']) (by lexemes [])).emit (b := [(.number (fmt p.data[j]), [' '])]) (by lexemes [l1]) (by apart [])
        refine (q.weaken (by short)).of_eq ?_ rfl
        simp [itemsText, Lexeme.spell]
      have hmod : modC j card = ok (j % card) := by unfold modC; rw [if_neg (by omega)]
      unfold tableCells
      rw [hmod, ok_bind]
      simp only
      rw [List.range_succ, List.flatMap_append, ← List.append_assoc]
      by_cases hb : 0 < j ∧ (j % card = 0 ∨ (elementsPerLine < card ∧ y % elementsPerLine = 0))
      · rw [if_pos hb]
        by_cases hi : j % card = 0
        · rw [if_pos hi]
          have hprod : p.size = p.card.prod := hw.1
          have hk : j - 1 < p.card.prod := by rw [← hw.1]; omega
          have hd := digits_inRange hw.2 (j - 1)
          have hlen := inRange_length hd
          rw [hprod, inverseMapping_eq hw.2 hk ht]
          simp only [ok_bind]
          have hdl : (digits p.card (j - 1)).length = parents.length + 1 := by rw [hlen, hpc]; simp
          obtain ⟨w, w1, w2, w3⟩ := printStates_comment hp hdl (by
            intro x hx
            have := List.Forall₂.get hd (i := x + 1) (by omega) (by rw [hpc]; simpa using hx)
            simp only [List.get_eq_getElem, hpc] at this
            simpa [hpc] using this) ((if 1 < parents.length then o ++ ")(".toList else o) ++ " % ".toList)
          rw [w1]
          simp only [ok_bind]
          rw [rd_lt hj]
          refine ⟨_, rfl, ⟨by simp, by simp, fun _ _ => by simp [hi]⟩, by rw [hlen], ?_⟩
          have q0 : Laid (13 + 42 * y + 2) (if 1 < parents.length then o ++ ")(".toList else o)
              ((ts ++ (List.range j).flatMap (cellLexemes (decide (1 < parents.length)) card (p.data.map fmt))) ++ (if 1 < parents.length then [.mark ')', .mark '('] else [])) := by
            by_cases hmul : 1 < parents.length
            · rw [if_pos hmul, if_pos hmul]
              exact (hlay.emit (b := [(.mark ')', []), (.mark '(', [])]) (by lexemes []) (by apart [])).of_eq (by simp [itemsText, Lexeme.spell]) rfl
            · rw [if_neg hmul, if_neg hmul, List.append_nil]
              exact hlay.weaken (by omega)
          have q1 := (q0.space (g := [' ']) (by lexemes [])).comment (w := ' ' :: w) (by simp [w2])
            (by simp only [List.length_cons, List.length_nil]; omega) (g := List.replicate 12 ' ') (by lexemes [List.replicate])
          refine ((cell q1).weaken (by simp)).of_eq (by simp [List.replicate]) ?_
          simp [cellLexemes, hb.1, hi, List.getElem?_eq_getElem hj]
        · rw [if_neg hi]
          simp only [ok_bind]
          rw [rd_lt hj]
          have hc7 : 7 < card := by
            rcases hb.2 with h | h
            · exact absurd h hi
            · exact h.1
          refine ⟨_, rfl, ⟨by simp, by simp, fun _ h => by omega⟩, ht, ?_⟩
          have q1 := hlay.line (by omega) (g := List.replicate 12 ' ') (by lexemes [List.replicate])
          refine ((cell q1).weaken (by simp)).of_eq (by simp [List.replicate]) ?_
          simp [cellLexemes, hi, List.getElem?_eq_getElem hj]
      · rw [if_neg hb]
        simp only [ok_bind]
        rw [rd_lt hj]
        have hy' : y < 7 ∧ (card ≤ 7 → y = j % card) := by
          rcases Nat.eq_zero_or_pos j with h0 | h0
          · rw [hy0 h0, h0]; simp
          · have hne : ¬ (j % card = 0) ∧ ¬ (7 < card ∧ y % 7 = 0) := ⟨fun h => hb ⟨h0, Or.inl h⟩, fun h => hb ⟨h0, Or.inr h⟩⟩
            have hpred : (j - 1) % card + 1 = j % card := by
              have e1 : j = (j - 1) + 1 := by omega
              have e2 := Nat.mod_lt (j - 1) hcard
              rcases Nat.lt_or_ge ((j - 1) % card + 1) card with h | h
              · conv_rhs => rw [e1, Nat.add_mod]
                rcases Nat.lt_or_ge 1 card with h1 | h1
                · rw [Nat.mod_eq_of_lt h1, Nat.mod_eq_of_lt h]
                · omega
              · exfalso
                apply hne.1
                rw [e1, Nat.add_mod, ← Nat.add_mod_mod]
                have : (j - 1) % card + 1 = card := by omega
                have h2 : ((j - 1) % card + 1) % card = 0 := by rw [this, Nat.mod_self]
                simpa [Nat.add_mod] using h2
            have hyc : card ≤ 7 → y = j % card := fun h => by rw [hyj h0 h, hpred]
            refine ⟨?_, hyc⟩
            rcases Nat.lt_or_ge 7 card with h | h
            · have := hne.2
              omega
            · rw [hyc h]
              have := Nat.mod_lt j hcard
              omega
        refine ⟨_, rfl, ⟨by simp only; omega, by simp, fun _ h => by simp only [Nat.add_sub_cancel]; rw [hy'.2 h]⟩, ht, ?_⟩
        refine ((cell hlay).weaken (by simp only; omega)).of_eq rfl ?_
        have : ¬ (0 < j ∧ j % card = 0) := fun h => hb ⟨h.1, Or.inl h.2⟩
        have h' : ¬ (decide (1 < parents.length) = true ∧ 0 < j ∧ j % card = 0) := fun h => this h.2
        simp [cellLexemes, List.getElem?_eq_getElem hj]
        intro _ h1 h2
        exact absurd ⟨h1, h2⟩ this)
  refine ⟨o, y, t, e, h3.weaken ?_⟩
  have hy : y ≤ 7 := hy
  show 13 + 42 * y ≤ 400
  omega

theorem printTable_laid {fmt : K → List Char} {v : NodeRec} (hv : v.Readable) {card : Nat} (hcard : 0 < card) {parents : List NodeRec} (hp : ∀ u ∈ parents, u.Readable)
    (hpos : 0 < parents.length) (hmany : parents.length ≤ 100)
    {p : Potential K} (hw : p.Wf) (hpc : p.card = card :: parents.map (fun u => u.states.length)) (hf : Formatted fmt p.data)
    {out : List Char} {ts : List Lexeme} (h : Laid 0 out ts) :
    ∃ out', printTable fmt v card parents p out = ok out' ∧ Laid 0 out' (ts ++ (printedTable fmt v card parents p.data).lexemes) := by
  obtain ⟨o1, e1, s1⟩ := tableHead_laid hv hp hpos hmany h
  generalize hts : ts ++ ([Lexeme.key .potential, .mark '(', .name v.symbol] ++ parentLexemes (some (parents.reverse.map (fun u => u.symbol))) ++
          [.mark ')', .mark '{', .key .data, .mark '=', .mark '(']) = ts1 at s1
  have s2 : Laid 13 (if 1 < parents.length then o1 ++ parents[0].symbol ++ ")\n{ \n    data = (".toList ++ "(".toList else o1 ++ parents[0].symbol ++ ")\n{ \n    data = (".toList)
      (ts1 ++ if 1 < parents.length then [.mark '('] else []) := by
    by_cases hmul : 1 < parents.length
    · rw [if_pos hmul, if_pos hmul]
      exact (s1.emit (b := [(.mark '(', [])]) (by lexemes []) (by apart [])).of_eq (by simp [itemsText, Lexeme.spell]) rfl
    · rw [if_neg hmul, if_neg hmul, List.append_nil]
      exact s1.weaken (by omega)
  obtain ⟨o2, y, t, e2, s3⟩ := tableCells_laid hcard hp hmany hw hpc hf s2
  have s4 : Laid 401 (if 1 < parents.length then o2 ++ ")".toList else o2)
      (ts1 ++ (if 1 < parents.length then [.mark '('] else []) ++
        (List.range p.data.length).flatMap (cellLexemes (decide (1 < parents.length)) card (p.data.map fmt)) ++ if 1 < parents.length then [.mark ')'] else []) := by
    by_cases hmul : 1 < parents.length
    · simp only [if_pos hmul] at s3 ⊢
      exact (s3.emit (b := [(.mark ')', [])]) (by lexemes []) (by apart [])).of_eq (by simp [itemsText, Lexeme.spell]) rfl
    · simp only [if_neg hmul, List.append_nil] at s3 ⊢
      exact s3.weaken (by omega)
  have s5 := s4.emitLine (b := [(.mark ')', []), (.mark ';', [])]) (by lexemes []) (by apart []) (by short) gap_nil
  have s6 := s5.emitLine (b := [(.mark '}', [])]) (by lexemes []) (by apart []) (by short) gap_nil
  refine ⟨_, ?_, (s6.weaken (by simp)).of_eq (ts' := _) rfl ?_⟩
  · unfold printTable
    simp only
    rw [e1, ok_bind, rd_lt hpos, ok_bind]
    have e2' : loop p.size (fun j (st : List Char × Nat × List Nat) => tableCells fmt card parents p j st) _ = ok (o2, y, t) := e2
    unfold tableCells at e2'
    rw [e2', ok_bind]
    simp [itemsText, Lexeme.spell]
  · rw [← hts]
    unfold PotText.lexemes printedTable
    simp only [dataLexemes]
    by_cases hmul : 1 < parents.length
    · simp only [hmul, if_true, decide_true]
      have hlen : p.data.length = (p.data.length / card) * card := by
        have : card ∣ p.data.length := by rw [hw.1, hpc, List.prod_cons]; exact Nat.dvd_mul_right _ _
        exact (Nat.div_mul_cancel this).symm
      have hq : 0 < p.data.length / card := by
        have h1 : 0 < p.data.length := by rw [hw.1]; exact prod_pos hw.2
        rcases Nat.eq_zero_or_pos (p.data.length / card) with h | h
        · rw [h] at hlen; omega
        · exact h
      have := cells_multi hcard (p.data.map fmt) hq (by simp only [List.length_map]; omega)
      rw [← this, ← hlen]
      simp
    · simp only [hmul, if_false, decide_false]
      have := cells_single card (p.data.map fmt) (k := p.data.length) (by simp)
      rw [this, flat_lexemes, List.take_of_length_le (by simp)]
      simp

end Nip
