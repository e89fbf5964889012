import Mathlib.Data.List.Dedup
import Verif.SeriesLemmas
import Verif.DataFileLemmas

/-! # Lemmas about reading time series from a file -/

namespace Nip

open Res Spec

/-! ## Lines -/

theorem groups_flatten {α : Type} (p : α → Bool) (l : List α) : (groups p l).flatten = l.filter (fun a => !p a) := by
  rw [groups_fold]
  have key : (l.foldl (groupStep p) ([], [])).1.flatten ++ (l.foldl (groupStep p) ([], [])).2 = l.filter (fun a => !p a) := by
    induction l using List.reverseRecOn with
    | nil => rfl
    | append_singleton l c ih =>
      rw [List.foldl_append, List.filter_append, ← ih]
      generalize l.foldl (groupStep p) ([], []) = st
      simp only [List.foldl_cons, List.foldl_nil, groupStep]
      cases hc : p c with
      | true =>
        simp only [if_true, List.append_nil]
        cases h : st.2 <;> simp [hc]
      | false => simp [hc]
  unfold closeGroups
  rw [← key]
  cases h : (l.foldl (groupStep p) ([], [])).2 <;> simp

/-- the lines of data still to come -/
def remaining (sep : Char) (label : Int) : List (List Char) → Nat → List (List Char)
  | [], _ => []
  | l :: rest, current =>
    if ((current + 1 : Nat) : Int) = label ∨ blankLine sep l = true then remaining sep label rest (current + 1)
    else l :: remaining sep label rest (current + 1)

theorem remaining_late (sep : Char) (label : Int) (lines : List (List Char)) (current : Nat) (h : label ≤ current) :
    remaining sep label lines current = lines.filter (fun l => !blankLine sep l) := by
  induction lines generalizing current with
  | nil => rfl
  | cons l rest ih =>
    unfold remaining
    rw [ih _ (by push_cast; omega), List.filter_cons]
    cases hb : blankLine sep l with
    | true => simp
    | false =>
      rw [if_neg (by simp; omega)]
      simp

theorem remaining_start (sep : Char) (lines : List (List Char)) (current : Nat) :
    remaining sep (if !lines.all (blankLine sep) then ((current : Int) + (lines.takeWhile (blankLine sep)).length) + 1 else -1) lines current =
      (dataLines true sep lines).filter (fun l => !blankLine sep l) := by
  induction lines generalizing current with
  | nil => rfl
  | cons l rest ih =>
    unfold remaining dataLines
    cases hb : blankLine sep l with
    | true =>
      rw [if_pos (Or.inr rfl)]
      have := ih (current + 1)
      unfold dataLines at this
      simp only [if_true] at this ⊢
      rw [List.dropWhile_cons_of_pos hb, ← this, List.all_cons, hb, Bool.true_and, List.takeWhile_cons_of_pos hb]
      congr 1
      by_cases ha : rest.all (blankLine sep) = true
      · simp [ha]
      · simp only [ha, Bool.not_false, if_true, List.length_cons]
        push_cast
        omega
    | false =>
      simp only [if_true]
      rw [List.dropWhile_cons_of_neg (by simp [hb]), List.tail_cons, List.all_cons, hb, Bool.false_and, Bool.not_false, if_pos rfl,
        List.takeWhile_cons_of_neg (by simp [hb])]
      rw [if_pos (Or.inl (by push_cast; simp))]
      exact remaining_late _ _ _ _ (by simp)

theorem nextLine_eq (sep : Char) (label : Int) (nodes : Nat) (lines : List (List Char)) (current : Nat) (l : List Char) (ls : List (List Char))
    (h : remaining sep label lines current = l :: ls) :
    ∃ rest current', nextLineTokens sep label nodes lines current = ok (some ((fields sep l).take nodes), rest, current') ∧
      remaining sep label rest current' = ls := by
  induction lines generalizing current with
  | nil => simp [remaining] at h
  | cons k rest ih =>
    unfold remaining at h
    unfold nextLineTokens
    rw [countTokens_fields, ok_bind]
    by_cases hs : ((current + 1 : Nat) : Int) = label ∨ blankLine sep k = true
    · rw [if_pos hs] at h
      have : (if ((current + 1 : Nat) : Int) = label then 0 else (fields sep k).length) = 0 := by
        rcases hs with hs | hs
        · rw [if_pos hs]
        · rw [(blank_fields sep k).1 hs]; simp
      simp only
      rw [this, if_pos (by omega)]
      exact ih _ h
    · rw [if_neg hs] at h
      obtain ⟨rfl, rfl⟩ := List.cons.inj h
      have hpos : 0 < (fields sep k).length := by
        rw [List.length_pos_iff]
        exact fun hf => hs (Or.inr ((blank_fields sep k).2 hf))
      obtain ⟨a, ha, hc⟩ := tokenise_fields sep k hpos
      simp only
      rw [if_neg (fun h => hs (Or.inl h)), if_neg (by omega), ha, ok_bind]
      simp only
      obtain ⟨t, ht, rfl⟩ := loop_inv (n := if nodes < (fields sep k).length then nodes else (fields sep k).length)
        (f := fun i tokens => do
          let t ← copyToken k a i
          ok (tokens ++ [t])) (s := []) (fun i t => t = (fields sep k).take i) rfl (by
        intro i hi t ht
        have hi' : i < (fields sep k).length := by split at hi <;> omega
        beta_reduce
        rw [hc i hi', ok_bind]
        exact ⟨_, rfl, by rw [ht, List.take_succ_eq_append_getElem hi']⟩)
      rw [ht, ok_bind]
      refine ⟨rest, current + 1, ?_, rfl⟩
      congr 3
      split
      · rfl
      · rw [List.take_length, List.take_of_length_le (by omega)]

/-! ## Columns -/

/-- the columns of variables of the model -/
def cols (x : VarTexts) (vars : List Nat) (header : List (List Char)) : List (Nat × Nat) :=
  header.zipIdx.filterMap (fun q => (x.search vars q.1).map (fun v => (v, q.2)))

theorem cols_nil (x : VarTexts) (vars : List Nat) : cols x vars [] = [] := rfl

theorem cols_snoc (x : VarTexts) (vars : List Nat) (header : List (List Char)) (s : List Char) :
    cols x vars (header ++ [s]) = cols x vars header ++ (match x.search vars s with
      | some v => [(v, header.length)]
      | none => []) := by
  unfold cols
  rw [List.zipIdx_append, List.filterMap_append]
  congr 1
  cases h : x.search vars s <;> simp [h]

theorem cols_take (x : VarTexts) (vars : List Nat) (header : List (List Char)) (i : Nat) (h : i < header.length) :
    cols x vars (header.take (i + 1)) = cols x vars (header.take i) ++ (match x.search vars header[i] with
      | some v => [(v, i)]
      | none => []) := by
  rw [List.take_succ_eq_append_getElem h, cols_snoc, List.length_take, Nat.min_eq_left (by omega)]

theorem cols_take_le (x : VarTexts) (vars : List Nat) (header : List (List Char)) (i : Nat) :
    (cols x vars (header.take i)).length ≤ (cols x vars header).length := by
  have : header.take i ++ header.drop i = header := List.take_append_drop i header
  conv_rhs => rw [← this]
  unfold cols
  rw [List.zipIdx_append, List.filterMap_append, List.length_append]
  omega

theorem cols_length (x : VarTexts) (vars : List Nat) (header : List (List Char)) :
    (header.filter (fun s => (x.search vars s).isSome)).length = (cols x vars header).length := by
  induction header using List.reverseRecOn with
  | nil => rfl
  | append_singleton header s ih =>
    rw [cols_snoc, List.filter_append, List.length_append, List.length_append, ih]
    cases h : x.search vars s <;> simp [h]

theorem mem_cols (x : VarTexts) (vars : List Nat) (header : List (List Char)) (v c : Nat) :
    (v, c) ∈ cols x vars header ↔ ∃ s, header[c]? = some s ∧ x.search vars s = some v := by
  unfold cols
  simp only [List.mem_filterMap, Option.map_eq_some_iff, Prod.mk.injEq, Prod.exists, List.mem_zipIdx_iff_getElem?]
  constructor
  · rintro ⟨s, c', h, v', hv, rfl, rfl⟩
    exact ⟨s, h, hv⟩
  · rintro ⟨s, h, hv⟩
    exact ⟨s, c, h, v, hv, rfl, rfl⟩

theorem replicate_set {α : Type} (a : List α) (n : Nat) (z w : α) (h : 0 < n) :
    (a ++ List.replicate n z).set a.length w = (a ++ [w]) ++ List.replicate (n - 1) z := by
  obtain ⟨m, rfl⟩ : ∃ m, n = m + 1 := ⟨n - 1, by omega⟩
  rw [List.set_append_right _ _ (le_refl _), Nat.sub_self, List.replicate_succ, List.set_cons_zero, List.append_assoc]
  rfl

/-- what the code makes of a field -/
def fieldValue (names : Nat → List (List Char)) (line : List (List Char)) (q : Nat × Nat) : Int :=
  match line[q.2]? with
  | some w => if w ∈ names q.1 then ((names q.1).idxOf w : Int) else -1
  | none => 0

theorem readRow_eq (x : VarTexts) (vars : List Nat) (names : Nat → List (List Char)) (hx : ∀ v ∈ vars, x.Named v (names v)) (d : DataFile)
    (st : List (List Char) × Nat) (l : List Char) (ls : List (List Char)) (h : remaining fieldSeparator d.label st.1 st.2 = l :: ls) :
    ∃ st', readRow x vars d (cols x vars d.symbols).length st =
        ok ((cols x vars d.symbols).map (fieldValue names (fields fieldSeparator l)), st') ∧
      remaining fieldSeparator d.label st'.1 st'.2 = ls := by
  obtain ⟨rest, current, e, hr⟩ := nextLine_eq fieldSeparator d.label d.symbols.length st.1 st.2 l ls h
  refine ⟨(rest, current), ?_, hr⟩
  unfold readRow
  rw [e, ok_bind]
  simp only
  set obs := (cols x vars d.symbols).length with hobs
  set F := fields fieldSeparator l with hF
  obtain ⟨r, e2, hr2, -⟩ := loop_inv (n := d.symbols.length) (f := fun i (r : List Int × Nat) => do
      let symbol ← rd d.symbols i
      match x.search vars symbol with
      | none => ok r
      | some v =>
        if (F.take d.symbols.length).length ≤ i then ok r
        else do
          let token ← rd (F.take d.symbols.length) i
          let s ← x.stateIndex v token
          let row ← wr r.1 r.2 s
          ok (row, r.2 + 1)) (s := (List.replicate obs 0, 0))
    (fun i r => r.1 = (cols x vars (d.symbols.take i)).map (fieldValue names F) ++
        List.replicate (obs - (cols x vars (d.symbols.take i)).length) 0 ∧
      (i ≤ F.length → r.2 = (cols x vars (d.symbols.take i)).length))
    (by simp [cols_nil]) (by
      rintro i hi ⟨row, k⟩ ⟨h1, h2⟩
      simp only at h1 h2
      have hle := cols_take_le x vars d.symbols (i + 1)
      beta_reduce
      rw [rd_lt hi, ok_bind]
      rw [cols_take x vars d.symbols i hi] at hle ⊢
      cases hv : x.search vars d.symbols[i] with
      | none =>
        simp only [List.append_nil]
        exact ⟨_, rfl, h1, fun h => h2 (by omega)⟩
      | some v =>
        rw [hv] at hle
        simp only [List.length_append, List.length_singleton] at hle ⊢
        by_cases hshort : F.length ≤ i
        · rw [if_pos (by rw [List.length_take]; omega)]
          refine ⟨_, rfl, ?_, fun h => by omega⟩
          simp only
          rw [h1, List.map_append, List.append_assoc]
          congr 1
          have : fieldValue names F (v, i) = 0 := by
            unfold fieldValue
            rw [List.getElem?_eq_none (by simpa using hshort)]
          rw [List.map_singleton, this]
          rw [← List.replicate_one, List.replicate_append_replicate]
          congr 1
          omega
        · have hlen : i < (F.take d.symbols.length).length := by rw [List.length_take]; omega
          rw [if_neg (by omega), rd_lt hlen, ok_bind]
          have hmem : v ∈ vars := List.mem_of_find?_eq_some hv
          rw [x.stateIndex_eq v (names v) (hx v hmem), ok_bind]
          have hk := h2 (by omega)
          subst hk
          rw [h1]
          rw [wr_lt (by rw [List.length_append, List.length_map, List.length_replicate]; omega), ok_bind]
          refine ⟨_, rfl, ?_, fun _ => rfl⟩
          simp only
          have := replicate_set ((cols x vars (d.symbols.take i)).map (fieldValue names F)) (obs - (cols x vars (d.symbols.take i)).length) 0
            (fieldValue names F (v, i)) (by omega)
          rw [List.length_map] at this
          rw [List.map_append, List.map_singleton, ← Nat.sub_sub, ← this]
          congr 1
          unfold fieldValue
          simp only
          rw [List.getElem?_eq_getElem (by omega : i < F.length)]
          simp only [List.getElem_take])
  refine Eq.trans (congrArg (fun r => Res.bind r _) e2) ?_
  rw [ok_bind']
  rw [hr2, List.take_length, Nat.sub_self, List.replicate_zero, List.append_nil]

theorem observedVariables_eq (x : VarTexts) (vars : List Nat) (header : List (List Char)) :
    observedVariables x vars header (cols x vars header).length =
      ok ((cols x vars header).map (fun q => some q.1), (cols x vars header).length) := by
  unfold observedVariables
  obtain ⟨r, e, h1, h2⟩ := loop_inv (n := header.length) (f := fun i (st : List (Option Nat) × Nat) => do
      let s ← rd header i
      match x.search vars s with
      | none => ok st
      | some v => do
        let a ← wr st.1 st.2 (some v)
        ok (a, st.2 + 1)) (s := (List.replicate (cols x vars header).length none, 0))
    (fun i st => st.1 = (cols x vars (header.take i)).map (fun q => some q.1) ++
        List.replicate ((cols x vars header).length - (cols x vars (header.take i)).length) none ∧
      st.2 = (cols x vars (header.take i)).length) (by simp [cols_nil]) (by
      rintro i hi ⟨a, k⟩ ⟨h1, h2⟩
      simp only at h1 h2
      subst h1 h2
      have hle := cols_take_le x vars header (i + 1)
      beta_reduce
      rw [rd_lt hi, ok_bind]
      rw [cols_take x vars header i hi] at hle ⊢
      cases hv : x.search vars header[i] with
      | none =>
        simp only [List.append_nil]
        exact ⟨_, rfl, rfl, rfl⟩
      | some v =>
        rw [hv] at hle
        simp only [List.length_append, List.length_singleton] at hle ⊢
        rw [wr_lt (by rw [List.length_append, List.length_map, List.length_replicate]; omega), ok_bind]
        refine ⟨_, rfl, ?_, rfl⟩
        simp only
        have := replicate_set ((cols x vars (header.take i)).map (fun q => some q.1))
          ((cols x vars header).length - (cols x vars (header.take i)).length) none (some v) (by omega)
        rw [List.length_map] at this
        rw [List.map_append, List.map_singleton, ← Nat.sub_sub, ← this])
  rw [List.take_length] at h1 h2
  rw [Nat.sub_self, List.replicate_zero, List.append_nil] at h1
  refine Eq.trans e ?_
  rw [← h1, ← h2]

/-- the variables without a column -/
def others (x : VarTexts) (vars : List Nat) (header : List (List Char)) (l : List Nat) : List Nat :=
  l.filter (fun v => !header.any (fun s => x.search vars s == some v))

theorem hiddenVariables_eq (x : VarTexts) (vars : List Nat) (header : List (List Char)) (n : Nat) :
    hiddenVariables x vars header n = if (others x vars header vars).length ≤ n then
      ok ((others x vars header vars).map some ++ List.replicate (n - (others x vars header vars).length) none, (others x vars header vars).length)
    else ub := by
  unfold hiddenVariables
  have key : ∀ m, m ≤ vars.length → loop m (fun k (st : List (Option Nat) × Nat) => do
      let v ← rd vars k
      if header.any (fun s => x.search vars s == some v) then ok st
      else do
        let a ← wr st.1 st.2 (some v)
        ok (a, st.2 + 1)) (List.replicate n none, 0) =
      if (others x vars header (vars.take m)).length ≤ n then
        ok ((others x vars header (vars.take m)).map some ++ List.replicate (n - (others x vars header (vars.take m)).length) none,
          (others x vars header (vars.take m)).length)
      else ub := by
    intro m
    induction m with
    | zero => intro _; simp [others]
    | succ m ih =>
      intro hm
      rw [loop_succ, ih (by omega)]
      have ho : others x vars header (vars.take (m + 1)) = others x vars header (vars.take m) ++
          (if header.any (fun s => x.search vars s == some vars[m]) then [] else [vars[m]]) := by
        unfold others
        rw [List.take_succ_eq_append_getElem (by omega : m < vars.length), List.filter_append]
        congr 1
        cases hc : header.any (fun s => x.search vars s == some vars[m]) <;> simp [List.filter_cons, hc]
      rw [ho]
      set O := others x vars header (vars.take m) with hO
      by_cases hle : O.length ≤ n
      · rw [if_pos hle, ok_bind', rd_lt (by omega : m < vars.length), ok_bind]
        by_cases hc : header.any (fun s => x.search vars s == some vars[m]) = true
        · rw [if_pos hc, if_pos hc, List.append_nil, if_pos hle]
        · rw [if_neg hc, if_neg hc, List.length_append, List.length_singleton]
          by_cases hlt : O.length + 1 ≤ n
          · rw [if_pos hlt, wr_lt (by rw [List.length_append, List.length_map, List.length_replicate]; omega), ok_bind]
            have := replicate_set (O.map some) (n - O.length) none (some vars[m]) (by omega)
            rw [List.length_map] at this
            rw [this, List.map_append, List.map_singleton, ← Nat.sub_sub]
          · rw [if_neg hlt, wr_ge (by rw [List.length_append, List.length_map, List.length_replicate]; omega)]
            rfl
      · rw [if_neg hle, ub_bind', if_neg (by rw [List.length_append]; omega)]
  have := key vars.length (le_refl _)
  rw [List.take_length] at this
  exact this

/-- the variables that have a column, in the order of the columns -/
def columnVars (x : VarTexts) (vars : List Nat) (header : List (List Char)) : List Nat := (cols x vars header).map Prod.fst

theorem mem_columnVars (x : VarTexts) (vars : List Nat) (header : List (List Char)) (v : Nat) :
    v ∈ columnVars x vars header ↔ ∃ s ∈ header, x.search vars s = some v := by
  unfold columnVars
  rw [List.mem_map]
  constructor
  · rintro ⟨⟨w, c⟩, h, rfl⟩
    obtain ⟨s, hs, hv⟩ := (mem_cols x vars header w c).1 h
    exact ⟨s, List.mem_of_getElem? hs, hv⟩
  · rintro ⟨s, hs, hv⟩
    obtain ⟨c, hc⟩ := List.getElem?_of_mem hs
    exact ⟨(v, c), (mem_cols x vars header v c).2 ⟨s, hc, hv⟩, rfl⟩

theorem others_eq (x : VarTexts) (vars : List Nat) (header : List (List Char)) :
    others x vars header vars = vars.filter (fun v => v ∉ columnVars x vars header) := by
  unfold others
  apply List.filter_congr
  intro v _
  rw [Bool.eq_iff_iff]
  simp only [Bool.not_eq_true', List.any_eq_false, beq_iff_eq, decide_eq_true_eq, mem_columnVars, not_exists, not_and]

theorem columnVars_subset (x : VarTexts) (vars : List Nat) (header : List (List Char)) : columnVars x vars header ⊆ vars := by
  intro v hv
  obtain ⟨s, _, h⟩ := (mem_columnVars x vars header v).1 hv
  exact List.mem_of_find?_eq_some h

theorem others_length (x : VarTexts) (vars : List Nat) (header : List (List Char)) (hv : vars.Nodup) :
    (others x vars header vars).length + (columnVars x vars header).dedup.length = vars.length := by
  rw [others_eq]
  have h1 := List.length_eq_length_filter_add (l := vars) (fun v => decide (v ∈ columnVars x vars header))
  have h2 : (vars.filter (fun v => decide (v ∈ columnVars x vars header))).length = (columnVars x vars header).dedup.length := by
    apply List.Perm.length_eq
    rw [List.perm_ext_iff_of_nodup (hv.filter _) (List.nodup_dedup _)]
    intro v
    rw [List.mem_filter, List.mem_dedup, decide_eq_true_eq]
    exact ⟨fun h => h.2, fun h => ⟨columnVars_subset x vars header h, h⟩⟩
  rw [← h2, h1, Nat.add_comm]
  congr 2
  apply List.filter_congr
  intro v _
  simp

/-- what is read of some lines -/
def readTs (x : VarTexts) (vars : List Nat) (names : Nat → List (List Char)) (header : List (List Char)) (lines : List (List Char)) :
    TimeSeries :=
  { numVars := vars.length, numHidden := (vars.length : Int) - (cols x vars header).length, hidden := others x vars header vars,
    numObserved := (cols x vars header).length, observed := columnVars x vars header, length := lines.length,
    data := if (cols x vars header).length = 0 then [] else
      lines.map (fun l => (cols x vars header).map (fieldValue names (fields fieldSeparator l))) }

theorem readOne_eq (x : VarTexts) (vars : List Nat) (hv : vars.Nodup) (names : Nat → List (List Char)) (hx : ∀ v ∈ vars, x.Named v (names v))
    (d : DataFile) (hd : (columnVars x vars d.symbols).Nodup) (st : List (List Char) × Nat) (chunk ls : List (List Char))
    (h : (cols x vars d.symbols).length ≠ 0 → remaining fieldSeparator d.label st.1 st.2 = chunk ++ ls) :
    ∃ st', readOne x vars d chunk.length st = ok (some (readTs x vars names d.symbols chunk, st')) ∧
      ((cols x vars d.symbols).length ≠ 0 → remaining fieldSeparator d.label st'.1 st'.2 = ls) := by
  have hlen := others_length x vars d.symbols hv
  rw [hd.dedup] at hlen
  have hcl : (columnVars x vars d.symbols).length = (cols x vars d.symbols).length := List.length_map _
  rw [hcl] at hlen
  unfold readOne
  simp only
  rw [cols_length]
  rw [if_neg (by omega), hiddenVariables_eq]
  have hn : ((vars.length : Int) - (cols x vars d.symbols).length).toNat = (others x vars d.symbols vars).length := by omega
  rw [hn, if_pos (le_refl _), ok_bind]
  simp only [Nat.sub_self, List.replicate_zero, List.append_nil, List.filterMap_map]
  have hid : (others x vars d.symbols vars).filterMap (id ∘ some) = others x vars d.symbols vars := by
    rw [Function.id_comp, List.filterMap_some]
  rw [hid]
  by_cases h0 : (cols x vars d.symbols).length = 0
  · rw [if_pos h0]
    refine ⟨st, ?_, fun h => absurd h0 h⟩
    unfold readTs columnVars
    rw [if_pos h0, List.eq_nil_of_length_eq_zero h0]
    rfl
  · rw [if_neg h0, observedVariables_eq, ok_bind]
    simp only
    obtain ⟨r, e, h1, h2⟩ := loop_inv (n := chunk.length) (f := fun j (r : List (List Int) × List (List Char) × Nat) => do
        let (row, st) ← readRow x vars d (cols x vars d.symbols).length r.2
        let data ← wr r.1 j row
        ok (data, st)) (s := (List.replicate chunk.length (List.replicate (cols x vars d.symbols).length 0), st))
      (fun j r => r.1 = (chunk.take j).map (fun l => (cols x vars d.symbols).map (fieldValue names (fields fieldSeparator l))) ++
          List.replicate (chunk.length - j) (List.replicate (cols x vars d.symbols).length 0) ∧
        remaining fieldSeparator d.label r.2.1 r.2.2 = chunk.drop j ++ ls) (by simp [h h0]) (by
        rintro j hj ⟨data, st1⟩ ⟨h1, h2⟩
        simp only at h1 h2
        rw [List.drop_eq_getElem_cons hj, List.cons_append] at h2
        obtain ⟨st', e, hr⟩ := readRow_eq x vars names hx d st1 _ _ h2
        beta_reduce
        simp only
        rw [e, ok_bind]
        simp only
        subst h1
        rw [wr_lt (by rw [List.length_append, List.length_map, List.length_replicate, List.length_take]; omega), ok_bind]
        refine ⟨_, rfl, ?_, hr⟩
        simp only
        have := replicate_set ((chunk.take j).map (fun l => (cols x vars d.symbols).map (fieldValue names (fields fieldSeparator l))))
          (chunk.length - j) (List.replicate (cols x vars d.symbols).length 0)
          ((cols x vars d.symbols).map (fieldValue names (fields fieldSeparator chunk[j]))) (by omega)
        rw [List.length_map, List.length_take, Nat.min_eq_left (by omega)] at this
        rw [this, List.take_succ_eq_append_getElem hj, List.map_append, List.map_singleton, ← Nat.sub_sub])
    refine ⟨r.2, ?_, fun _ => ?_⟩
    · refine Eq.trans (congrArg (fun r => Res.bind r _) e) ?_
      rw [ok_bind']
      rw [List.take_length, Nat.sub_self, List.replicate_zero, List.append_nil] at h1
      unfold readTs columnVars
      rw [if_neg h0, ← h1]
      congr 4
      rw [List.filterMap_map]
      show List.filterMap (some ∘ Prod.fst) _ = _
      rw [List.filterMap_eq_map]
    · rw [List.drop_length, List.nil_append] at h2
      exact h2

theorem analysis (file : List Char) : ∃ d, analyseDataFile fieldSeparator true file = ok (some d) ∧
    d.ndatarows = (series true fieldSeparator (fileLines file)).length ∧
    d.datarows = (series true fieldSeparator (fileLines file)).map List.length ∧ d.symbols = hdr true fieldSeparator (fileLines file) ∧
    remaining fieldSeparator d.label (fileLines file) 0 = (series true fieldSeparator (fileLines file)).flatten := by
  refine ⟨_, analyse_eq _ _ _, rfl, rfl, rfl, ?_⟩
  rw [series, groups_flatten]
  have := remaining_start fieldSeparator (fileLines file) 0
  simpa using this

theorem readTimeseries_eq (x : VarTexts) (vars : List Nat) (hv : vars.Nodup) (names : Nat → List (List Char))
    (hx : ∀ v ∈ vars, x.Named v (names v)) (file : List Char)
    (hd : (columnVars x vars (hdr true fieldSeparator (fileLines file))).Nodup) :
    readTimeseries x vars file = ok (some ((series true fieldSeparator (fileLines file)).map
      (readTs x vars names (hdr true fieldSeparator (fileLines file))))) := by
  unfold readTimeseries
  obtain ⟨d, ed, hd1, hd2, hd3, hd4⟩ := analysis file
  rw [ed, ok_bind]
  simp only
  rw [hd1, hd2]
  rw [← hd3] at hd ⊢
  set H := d.symbols with hH
  set S := series true fieldSeparator (fileLines file) with hS
  obtain ⟨r, e, st, rfl, -⟩ := loop_inv (n := S.length) (f := fun n (r : Option (List TimeSeries × List (List Char) × Nat)) =>
      match r with
      | none => ok none
      | some (l, st) => do
        let len ← rd (S.map List.length) n
        let o ← readOne x vars d len st
        match o with
        | none => ok none
        | some (ts, st) => ok (some (l ++ [ts], st))) (s := some ([], fileLines file, 0))
    (fun n r => ∃ st, r = some ((S.take n).map (readTs x vars names H), st) ∧
      ((cols x vars H).length ≠ 0 → remaining fieldSeparator d.label st.1 st.2 = (S.drop n).flatten)) (by
      refine ⟨_, rfl, fun _ => ?_⟩
      rw [List.drop_zero]
      exact hd4) (by
      rintro n hn _ ⟨st, rfl, hr⟩
      simp only
      rw [rd_lt (by rw [List.length_map]; exact hn), ok_bind, List.getElem_map]
      rw [List.drop_eq_getElem_cons hn, List.flatten_cons] at hr
      obtain ⟨st', e, hr'⟩ := readOne_eq x vars hv names hx d hd st S[n] _ hr
      rw [e, ok_bind]
      refine ⟨_, rfl, st', ?_, hr'⟩
      rw [List.take_succ_eq_append_getElem hn, List.map_append]
      rfl)
  refine Eq.trans (congrArg (fun r => Res.bind r _) e) ?_
  rw [ok_bind', List.take_length]

theorem readTimeseries_double (x : VarTexts) (vars : List Nat) (hv : vars.Nodup) (file : List Char)
    (hd : ¬ (columnVars x vars (hdr true fieldSeparator (fileLines file))).Nodup)
    (hs : series true fieldSeparator (fileLines file) ≠ []) (l : List TimeSeries) : readTimeseries x vars file ≠ ok (some l) := by
  unfold readTimeseries
  obtain ⟨d, ed, hd1, hd2, hd3, hd4⟩ := analysis file
  rw [ed, ok_bind]
  simp only
  rw [hd1, hd2]
  rw [← hd3] at hd
  set H := d.symbols with hH
  set S := series true fieldSeparator (fileLines file) with hS
  have hbad : ∀ len st, readOne x vars d len st = ok none ∨ readOne x vars d len st = ub := by
    intro len st
    have hlen := others_length x vars H hv
    have hlt : (columnVars x vars H).dedup.length < (columnVars x vars H).length := by
      rcases Nat.lt_or_ge (columnVars x vars H).dedup.length (columnVars x vars H).length with h | h
      · exact h
      · refine absurd ?_ hd
        rw [← List.dedup_eq_self]
        exact (List.dedup_sublist _).eq_of_length_le h
    have hcl : (columnVars x vars H).length = (cols x vars H).length := List.length_map _
    unfold readOne
    simp only
    have hobs : (d.symbols.filter (fun s => (x.search vars s).isSome)).length = (cols x vars H).length := cols_length x vars H
    rw [hobs]
    by_cases hneg : (vars.length : Int) - (cols x vars H).length < 0
    · rw [if_pos hneg]; exact Or.inl rfl
    · rw [if_neg hneg]
      right
      have : hiddenVariables x vars d.symbols ((vars.length : Int) - (cols x vars H).length).toNat = ub := by
        rw [hiddenVariables_eq, if_neg]
        show ¬ (others x vars H vars).length ≤ _
        omega
      rw [this]
      rfl
  set f : Nat → Option (List TimeSeries × List (List Char) × Nat) → Res (Option (List TimeSeries × List (List Char) × Nat)) :=
    fun n r =>
      match r with
      | none => ok none
      | some (l, st) => do
        let len ← rd (S.map List.length) n
        let o ← readOne x vars d len st
        match o with
        | none => ok none
        | some (ts, st) => ok (some (l ++ [ts], st)) with hf
  have key : ∀ n, loop (n + 1) f (some ([], fileLines file, 0)) = ok none ∨ loop (n + 1) f (some ([], fileLines file, 0)) = ub := by
    intro n
    induction n with
    | zero =>
      rw [loop_succ, loop_zero, ok_bind', hf]
      simp only
      rcases hrd : rd (S.map List.length) 0 with len | _
      · rw [ok_bind]
        rcases hbad len (fileLines file, 0) with h | h
        · rw [h]; exact Or.inl rfl
        · rw [h]; exact Or.inr rfl
      · exact Or.inr rfl
    | succ n ih =>
      rw [loop_succ]
      rcases ih with h | h
      · rw [h]; exact Or.inl rfl
      · rw [h]; exact Or.inr rfl
  have hpos : 0 < S.length := List.length_pos_iff.2 hs
  obtain ⟨n, hn⟩ : ∃ n, S.length = n + 1 := ⟨S.length - 1, by omega⟩
  rw [hn]
  intro hcon
  rcases key n with h | h
  · have := Eq.trans (congrArg (fun r => Res.bind r _) h).symm hcon
    rw [ok_bind'] at this
    cases this
  · have := Eq.trans (congrArg (fun r => Res.bind r _) h).symm hcon
    cases this

end Nip
