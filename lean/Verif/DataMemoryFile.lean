import Verif.DataMemoryLines
import Verif.Spec.DataMemory

/-! # Lemmas about the memory of data files: the whole analysis -/

namespace Nip

open Res Spec Store

/-- the cell of a file that was opened -/
def openCell (header : Bool) (s : Nat) : FileCell :=
  { write := false, header := header, name := .block s, ndatarows := 0, datarows := .null, nodes := 0, symbols := .null, counts := .null, states := .null }

/-- The analysis without failures. -/
theorem analyseData_spec {m : FileMemory} {M : Multiset Nat} {f s : Nat} {header : Bool} {name : List Char} (sep : Char) (lines : List (List Char)) (h : m.Within ({f} + ({s} + M)))
    (hs : m.blocks s = some (.text name)) (hc : m.blocks f = some (.file (openCell header s))) (hf : ∀ k, m.fails k = false) :
    ∃ (m' : FileMemory) (F : DBase) (t : Analysis), m.analyseData (.block f) sep lines = ok (some t.ts, m') ∧ m.Keeps m' M ∧ F.f = f ∧ F.s = s ∧ F.header = header ∧ F.name = name ∧ F.rows = (series header sep lines).length ∧
      AnaInv header sep (series header sep lines).length lines t ∧
      (F.Empty t m' M ∨ ∃ D T, F.Done D T t.datarows m' M ∧ t.symbols = D.syms.map Prod.snd ∧ t.names = some (T.map SCol.names)) := by
  obtain ⟨m1, a1, w1, b1, k1, n1⟩ := h.given (hf _) (.ints (List.replicate (series header sep lines).length 0))
  let F : DBase := ⟨f, s, m.next, (series header sep lines).length, header, name⟩
  obtain ⟨m2, a2, w2, b2, k2, n2⟩ := Within.write (a := f) (M := {s} + ({m.next} + M)) (m := m1) (w1.as (by abel)) (.file F.cell)
  have hs0 : series header sep [] = [] := by cases header <;> rfl
  let t0 : Analysis := { state := if header then 2 else 1, ts := 0, empty := 0, datarows := List.replicate (series header sep lines).length 0, symbols := [], names := none }
  have hi0 : AnaInv header sep (series header sep lines).length [] t0 := by
    refine ⟨by cases header <;> rfl, by rw [hs0]; rfl, ?_, by rw [hs0]; simp [t0], by cases header <;> rfl, by cases header <;> rfl⟩
    intro h
    cases header <;> cases h
  have hk12 : m.Keeps m2 ({s} + M) := by
    refine (k1.mono (Multiset.le_add_left _ _)).then k2 ?_
    rw [Multiset.le_iff_exists_add]; exact ⟨{m.next}, by abel⟩
  have hE : F.Empty t0 m2 M := by
    refine ⟨w2, ?_, ?_, ?_, b2, ?_, rfl, rfl⟩
    · rw [hk12.same _ (by simp [F])]; exact hs
    · change m2.blocks m.next = _
      rw [k2.same _ (by simp), b1]
    · intro k; rw [hk12.fails]; exact hf k
    · simp only [t0]; split <;> omega
  obtain ⟨m3, p, t, a3, r3, k3, i3⟩ := lines_spec (F := F) (sep := sep) (series header sep lines).length lines [] (Or.inl ⟨hE, rfl⟩) hi0 (by simp [F])
  rw [List.nil_append] at i3
  have hpre : ∀ X, (do
      let (t, m) ← linesInMemory (.block f) sep lines (fileRun t0 .null) m2
      match t with
      | none => ok (none, m)
      | some t => do
        let c ← m.fileCellAt (.block f)
        let m ← loop c.nodes (fun i m => m.storeNames (.block f) t.names i) m
        let m ← m.free t.names
        ok (some t.ts, m)) = X → m.analyseData (.block f) sep lines = X := by
    rintro X rfl
    unfold analyseData
    rw [fileCellAt_eq hc, ok_bind]
    simp only [openCell, Bool.false_eq_true, if_false]
    rw [countDataRows_eq, ok_bind]
    simp only [a1]
    have a2' : m1.put (.block f) (.file { write := false, header := header, name := .block s, ndatarows := (series header sep lines).length, datarows := .block m.next, nodes := 0, symbols := .null, counts := .null, states := .null }) = ok m2 := a2
    rw [a2', ok_bind, if_neg (by simp)]
    rfl
  rcases r3 with ⟨h3, rfl⟩ | ⟨D, h3, rfl⟩
  · refine ⟨m3, F, t, hpre _ ?_, (hk12.mono (Multiset.le_add_left _ _)).trans k3, rfl, rfl, rfl, rfl, rfl, i3, Or.inl h3⟩
    change (linesInMemory (.block F.f) sep lines (fileRun t0 .null) m2 >>= _) = _
    rw [a3, ok_bind]
    simp only [fileRun]
    rw [fileCellAt_eq (show m3.blocks f = _ from h3.file), ok_bind]
    rfl
  · obtain ⟨m4, m5, T, a4, a5, d5, e5, k5⟩ := storeAll_spec h3
    refine ⟨m5, F, t, hpre _ ?_, ((hk12.mono (Multiset.le_add_left _ _)).trans k3).trans k5, rfl, rfl, rfl, rfl, rfl, i3, Or.inr ⟨D, T, d5, h3.symbols, by rw [h3.names, e5]⟩⟩
    change (linesInMemory (.block F.f) sep lines (fileRun t0 .null) m2 >>= _) = _
    rw [a3, ok_bind]
    simp only [fileRun]
    rw [fileCellAt_eq (show m3.blocks f = _ from h3.file), ok_bind]
    have a4' : loop (F.cellWith D).nodes (fun i m => m.storeNames (.block f) (.block D.p) i) m3 = ok m4 := a4
    rw [a4', ok_bind, a5, ok_bind]

theorem DBase.Empty.close {F : DBase} {t : Analysis} {m : FileMemory} {M : Multiset Nat} (h : F.Empty t m M) : ∃ m', m.closeData (.block F.f) = ok m' ∧ m'.Within M ∧ m.Keeps m' M :=
  closeData_spec (c := F.cell) (S := 0) (T := []) (h.within.as (by simp [DBase.cell, blocks_block, scolsBlocks, MemPtr.blocks])) h.file (by simp [DBase.cell]) (by simp [DBase.cell])
    (by simp [DBase.cell]) (Or.inl ⟨rfl, rfl⟩) (Or.inl ⟨rfl, rfl⟩)

theorem symPtrs_junk (l : List (Nat × List Char)) : ∀ q ∈ symPtrs l, q ≠ .junk := by
  intro q hq
  unfold symPtrs at hq
  obtain ⟨k, _, rfl⟩ := List.mem_map.1 hq
  simp

theorem DBase.Done.close {F : DBase} {D : DCols} {T : List SCol} {rows : List Nat} {m : FileMemory} {M : Multiset Nat} (h : F.Done D T rows m M) :
    ∃ m', m.closeData (.block F.f) = ok m' ∧ m'.Within M ∧ m.Keeps m' M :=
  closeData_spec (c := F.cellWith D) (S := {D.a} + ptrBlocks (symPtrs D.syms)) (T := T)
    (h.within.as (by simp only [DBase.cellWith, DBase.cell, blocks_block, DCols.fixed]; abel)) h.file (by simp [DBase.cellWith, DBase.cell]) (by simp [DBase.cellWith])
    (by simp [DBase.cellWith, DBase.cell]) (Or.inr ⟨D.a, _, rfl, h.syms, by simp [symPtrs, DBase.cellWith], symPtrs_junk _, rfl⟩)
    (Or.inr ⟨D.x, D.k, rfl, rfl, h.states, h.counts, h.length, h.good⟩)

/-- the number of blocks -/
theorem SCol.Good.card {c : SCol} {m : FileMemory} (h : c.Good m) : c.blocks.card = if c.links.length = 0 then 0 else 1 + c.links.length := by
  have hl : ∀ ls : List NLink, (ptrBlocks (textPtrs ls)).card = ls.length := by
    intro ls
    induction ls with
    | nil => rfl
    | cons k ls ih =>
      rw [show textPtrs (k :: ls) = .block k.textAt :: textPtrs ls from rfl, ptrBlocks_cons, Multiset.card_add, ih, blocks_block, Multiset.card_singleton, List.length_cons, add_comm]
  unfold SCol.blocks
  rw [Multiset.card_add, hl]
  rcases h.array with ⟨h1, h2⟩ | ⟨h1, a, h2, _⟩
  · rw [h1, h2]; rfl
  · rw [h2, blocks_block, Multiset.card_singleton, if_neg (by simpa using h1)]

theorem scolsBlocks_card {T : List SCol} {m : FileMemory} (h : ∀ c ∈ T, c.Good m) : (scolsBlocks T).card = (T.map (fun c => if c.names.length = 0 then 0 else 1 + c.names.length)).sum := by
  induction T with
  | nil => rfl
  | cons c T ih =>
    rw [scolsBlocks_cons, Multiset.card_add, ih (fun c hc => h c (List.mem_cons_of_mem _ hc)), (h c List.mem_cons_self).card]
    simp [SCol.names]

theorem symPtrs_card (l : List (Nat × List Char)) : (ptrBlocks (symPtrs l)).card = l.length := by
  induction l with
  | nil => rfl
  | cons k l ih => rw [show symPtrs (k :: l) = .block k.1 :: symPtrs l from rfl, ptrBlocks_cons, Multiset.card_add, ih, blocks_block, Multiset.card_singleton, List.length_cons, add_comm]

/-- the number of states of a column -/
theorem colNames_length (sep : Char) (lines : List (List Char)) (j : Nat) : (colNames true sep lines j).length = (columnValues sep lines j).dedup.length := by
  obtain ⟨h1, h2⟩ := colNames_spec true sep lines j
  refine List.Perm.length_eq ((List.perm_ext_iff_of_nodup h1 (List.nodup_dedup _)).2 fun v => ?_)
  rw [h2, List.mem_dedup]
  unfold columnValues Occurs
  simp only [List.mem_filter, List.mem_filterMap, Bool.not_eq_true']
  exact and_comm

theorem columnBlocks_eq (sep : Char) (lines : List (List Char)) (j : Nat) :
    columnBlocks sep lines j = if (colNames true sep lines j).length = 0 then 0 else 1 + (colNames true sep lines j).length := by
  unfold columnBlocks
  rw [colNames_length]
  cases (columnValues sep lines j).dedup.length <;> simp

theorem hdr_true (sep : Char) (lines : List (List Char)) : hdr true sep lines = columnNames sep lines := by
  unfold hdr columnNames
  rw [if_pos rfl]
  cases lines.dropWhile (blankLine sep) <;> rfl

theorem DBase.Done.card {F : DBase} {D : DCols} {T : List SCol} {rows : List Nat} {m : FileMemory} {M : Multiset Nat} (h : F.Done D T rows m M) :
    m.inUse = M.card + (3 + ((1 + D.syms.length) + 1 + 1 + (T.map (fun c => if c.names.length = 0 then 0 else 1 + c.names.length)).sum)) := by
  rw [h.within.count]
  simp only [Multiset.card_add, Multiset.card_singleton, DCols.fixed, scolsBlocks_card h.good, symPtrs_card]
  omega

/-! ### early failures -/

/-- Blank lines need no memory. -/
theorem lines_blank (f : MemPtr) (sep : Char) (pre rest : List (List Char)) (hb : ∀ l ∈ pre, blankLine sep l = true) (t : FileRun) (m : FileMemory) :
    linesInMemory f sep (pre ++ rest) t m = linesInMemory f sep rest { t with empty := t.empty + pre.length } m := by
  induction pre generalizing t with
  | nil => rfl
  | cons l pre ih =>
    obtain ⟨n, h1, _, h2⟩ := countTokens_blank sep l
    rw [List.cons_append, linesInMemory]
    unfold lineInMemory
    rw [h1, ok_bind, if_pos (h2.2 (hb l List.mem_cons_self))]
    simp only [ok_bind]
    rw [ih (fun l hl => hb l (List.mem_cons_of_mem _ hl)), List.length_cons]
    have : t.empty + 1 + pre.length = t.empty + (pre.length + 1) := by omega
    simp only [this]

/-- No memory for line counts, for the first line, for the names of columns, or for the array of lists: an error, and the file can be closed. -/
theorem analyse_early {m : FileMemory} {M : Multiset Nat} {f s : Nat} (sep : Char) (lines : List (List Char)) (h : m.Within ({f} + ({s} + M)))
    (hc : m.blocks f = some (.file (openCell true s)))
    (hj : ∃ j, m.fails (m.next + j) = true ∧ (j = 0 ∨ (j < (columnNames sep lines).length + 4 ∧ columnNames sep lines ≠ []))) :
    ∃ m' N, m.analyseData (.block f) sep lines = ok (none, m') ∧ m'.Within ({f} + ({s} + (N + M))) ∧ m.Keeps m' M ∧
      ∃ m'', m'.closeData (.block f) = ok m'' ∧ m''.Within M ∧ m.Keeps m'' M := by
  have hstart : ∀ (d : MemPtr) (m1 m2 : FileMemory), m.alloc (.ints (List.replicate (series true sep lines).length 0)) = (d, m1) →
      m1.put (.block f) (.file { openCell true s with ndatarows := (series true sep lines).length, datarows := d }) = ok m2 → ∀ X,
      (if d == .null then ok (none, m2) else do
        let (t, m) ← linesInMemory (.block f) sep lines { state := 2, ts := 0, empty := 0, names := .null } m2
        match t with
        | none => ok (none, m)
        | some t => do
          let c ← m.fileCellAt (.block f)
          let m ← loop c.nodes (fun i m => m.storeNames (.block f) t.names i) m
          let m ← m.free t.names
          ok (some t.ts, m)) = X → m.analyseData (.block f) sep lines = X := by
    rintro d m1 m2 e1 e2 X rfl
    unfold analyseData
    rw [fileCellAt_eq hc, ok_bind]
    have ew : (openCell true s).write = false := rfl
    have eh : (openCell true s).header = true := rfl
    rw [ew, eh, if_neg (by simp), countDataRows_eq, ok_bind]
    simp only [e1]
    have e2' : m1.put (.block f) (.file { write := false, header := true, name := (openCell true s).name, ndatarows := (series true sep lines).length, datarows := d, nodes := (openCell true s).nodes, symbols := (openCell true s).symbols, counts := (openCell true s).counts, states := (openCell true s).states }) = ok m2 := e2
    rw [e2', ok_bind]
    rfl
  rcases h.any (.ints (List.replicate (series true sep lines).length 0)) with ⟨m1, a1, f1, w1, k1, n1⟩ | ⟨m1, a1, f1, w1, b1, k1, n1⟩
  · obtain ⟨m2, a2, w2, b2, k2, n2⟩ := w1.write (.file { openCell true s with ndatarows := (series true sep lines).length, datarows := .null })
    have k02 : m.Keeps m2 M := ((k1.mono (Multiset.le_add_left _ _)).trans k2).mono (Multiset.le_add_left _ _)
    obtain ⟨m3, a3, w3, k3⟩ := closeData_spec (S := 0) (T := []) (M := M) (w2.as (by simp [openCell, blocks_block, scolsBlocks, MemPtr.blocks])) b2 (by simp [openCell]) (by simp [openCell]) (by simp)
      (Or.inl ⟨rfl, rfl⟩) (Or.inl ⟨rfl, rfl⟩)
    exact ⟨m2, 0, hstart _ _ _ a1 a2 _ (by simp), w2.as (by rw [zero_add]), k02, m3, a3, w3, k02.trans k3⟩
  · obtain ⟨j, hj1, hj2⟩ := hj
    have hj0 : j ≠ 0 := by
      rintro rfl
      rw [Nat.add_zero, f1] at hj1
      cases hj1
    obtain ⟨hj2, hne⟩ := hj2.resolve_left hj0
    obtain ⟨m2, a2, w2, b2, k2, n2⟩ := Within.write (a := f) (M := {m.next} + ({s} + M)) (m := m1) (w1.as (by abel))
      (.file { openCell true s with ndatarows := (series true sep lines).length, datarows := .block m.next })
    have k02 : m.Keeps m2 ({s} + M) := (k1.mono (Multiset.le_add_left _ _)).then k2 (Multiset.le_add_left _ _)
    obtain ⟨pre, line, rest, hlines, hpre, hcn⟩ : ∃ pre line rest, lines = pre ++ line :: rest ∧ (∀ l ∈ pre, blankLine sep l = true) ∧ columnNames sep lines = fields sep line := by
      unfold columnNames at hne ⊢
      cases hd : lines.dropWhile (blankLine sep) with
      | nil => rw [hd] at hne; exact absurd rfl hne
      | cons x rest => exact ⟨lines.takeWhile (blankLine sep), x, rest, by rw [← hd, List.takeWhile_append_dropWhile], fun l hl => List.all_eq_true.1 List.all_takeWhile l hl, rfl⟩
    rw [hcn] at hj2 hne
    have hn : ¬ (fields sep line).length = 0 := by simpa using hne
    obtain ⟨a, ha, hw⟩ := tokenise_fields sep line (by omega)
    -- the line decides
    have hline : ∀ (b : MemPtr) (m3 : FileMemory), m2.alloc (.ints a) = (b, m3) → ∀ m4,
        ((b == .null) = true ∧ m4 = m3 ∨ (b == .null) = false ∧ m3.headerLine (.block f) line b (fields sep line).length = ok (none, m4)) →
        m.analyseData (.block f) sep lines = ok (none, m4) := by
      intro b m3 e m4 hcase
      refine hstart _ _ _ a1 a2 _ ?_
      rw [if_neg (by simp), hlines, lines_blank _ _ _ _ hpre, linesInMemory]
      have hl : m2.lineInMemory (.block f) sep line { state := 2, ts := 0, empty := 0 + pre.length, names := .null } = ok (none, m4) := by
        unfold lineInMemory
        rw [countTokens_fields, ok_bind, if_neg hn, ha, ok_bind]
        simp only [e]
        rcases hcase with ⟨e1, rfl⟩ | ⟨e1, e2⟩
        · rw [if_pos e1]
        · rw [if_neg (by rw [e1]; simp)]
          simp only [Nat.reduceSub, gt_iff_lt, Nat.lt_add_one, if_true, e2, ok_bind, Nat.zero_lt_one]
      rw [hl]
      rfl
    rcases w2.any (.ints a) with ⟨m3, a3, f3, w3, k3, n3⟩ | ⟨m3, a3, f3, w3, b3, k3, n3⟩
    · obtain ⟨m4, a4, w4, k4⟩ := closeData_spec (S := 0) (T := []) (M := M) (m := m3) (f := f)
        (c := { openCell true s with ndatarows := (series true sep lines).length, datarows := .block m.next })
        (w3.as (by simp only [openCell, blocks_block, scolsBlocks, MemPtr.blocks, List.map_nil, List.sum_nil]; abel))
        (by rw [k3.same _ (by simp), b2]) (by simp [openCell]) (by simp [openCell]) (by simp) (Or.inl ⟨rfl, rfl⟩) (Or.inl ⟨rfl, rfl⟩)
      have k03 : m.Keeps m3 M := (k02.mono (Multiset.le_add_left _ _)).trans (k3.mono (by rw [Multiset.le_iff_exists_add]; exact ⟨{f} + {m.next} + {s}, by abel⟩))
      exact ⟨m3, {m.next}, hline _ _ a3 _ (Or.inl ⟨by simp, rfl⟩), w3.as (by abel), k03, m4, a4, w4, k03.trans k4⟩
    · have k03 : m.Keeps m3 M := (k02.mono (Multiset.le_add_left _ _)).trans (k3.mono (by rw [Multiset.le_iff_exists_add]; exact ⟨{f} + {m.next} + {s}, by abel⟩))
      rcases setSymbols_spec (c := { openCell true s with ndatarows := (series true sep lines).length, datarows := .block m.next }) (f := f) (b := m2.next) (M := {m.next} + ({s} + M)) (m := m3)
          (fields sep line) w3 (by rw [k3.same _ (by simp), b2]) rfl b3 hw with
        ⟨m4, q, S, a4, w4, k4, b4, q4, _⟩ | ⟨m4, aS, syms, a4, w4, k4, b4, c4, d4, g4, n4, f4⟩
      · obtain ⟨m5, a5, w5, k5, n5⟩ := Within.release (q := .block m2.next) (by simp) (m := m4) (M := {f} + (S + ({m.next} + ({s} + M)))) w4
        have k05 : m.Keeps m5 M := by
          refine (k03.trans (k4.mono ?_)).trans (k5.mono ?_)
          · rw [Multiset.le_iff_exists_add]; exact ⟨{m2.next} + {m.next} + {s}, by abel⟩
          · rw [Multiset.le_iff_exists_add]; exact ⟨{f} + S + {m.next} + {s}, by abel⟩
        obtain ⟨m6, a6, w6, k6⟩ := closeData_spec (S := S) (T := []) (M := M) (m := m5) (f := f)
          (c := { openCell true s with ndatarows := (series true sep lines).length, datarows := .block m.next, nodes := (fields sep line).length, symbols := q })
          (w5.as (by simp only [openCell, blocks_block, scolsBlocks, MemPtr.blocks, List.map_nil, List.sum_nil]; abel))
          (by rw [k5.same _ (by simp), b4]) (by simp [openCell]) (by simp [openCell]) (by simp) (by
            rcases q4 with q4 | ⟨x, l, e1, e2, e3, e4, e5⟩
            · exact Or.inl q4
            · exact Or.inr ⟨x, l, e1, by rw [k5.same _ (by simp [e5]), e2], e3, e4, e5⟩) (Or.inl ⟨rfl, rfl⟩)
        refine ⟨m5, S + {m.next}, hline _ _ a3 _ (Or.inr ⟨by simp, ?_⟩), w5.as (by abel), k05, m6, a6, w6, k05.trans k6⟩
        unfold headerLine
        rw [a4, ok_bind]
        simp only [Bool.not_false, if_true]
        rw [a5, ok_bind]
      · -- only the array of lists is left
        have hfail : m4.fails m4.next = true := by
          have e4 : m4.next = m.next + ((fields sep line).length + 3) := by omega
          have ef : m4.fails = m.fails := by rw [k4.fails, k03.fails]
          rw [e4, ef]
          have : j = (fields sep line).length + 3 := by
            by_contra hne
            rcases Nat.lt_or_ge j 2 with h2 | h2
            · have : j = 1 := by omega
              subst this
              rw [k02.fails, show m2.next = m.next + 1 by omega, hj1] at f3
              cases f3
            · have := f4 (j - 2) (by omega)
              rw [k03.fails, show m3.next + (j - 2) = m.next + j by omega, hj1] at this
              cases this
          rw [← this]; exact hj1
        rcases w4.any (.pointers (List.replicate (fields sep line).length .null)) with ⟨m5, a5, f5, w5, k5, n5⟩ | ⟨m5, a5, f5, _⟩
        · obtain ⟨m6, a6, w6, k6, n6⟩ := Within.release (q := .block m2.next) (by simp) (m := m5) (M := {f} + (({aS} + ptrBlocks (symPtrs syms)) + ({m.next} + ({s} + M)))) w5
          have k06 : m.Keeps m6 M := by
            refine ((k03.trans (k4.mono ?_)).trans (k5.mono ?_)).trans (k6.mono ?_)
            · rw [Multiset.le_iff_exists_add]; exact ⟨{m2.next} + {m.next} + {s}, by abel⟩
            · rw [Multiset.le_iff_exists_add]; exact ⟨{m2.next} + {f} + ({aS} + ptrBlocks (symPtrs syms)) + {m.next} + {s}, by abel⟩
            · rw [Multiset.le_iff_exists_add]; exact ⟨{f} + ({aS} + ptrBlocks (symPtrs syms)) + {m.next} + {s}, by abel⟩
          have hsl : syms.length = (fields sep line).length := by rw [← d4, List.length_map]
          obtain ⟨m7, a7, w7, k7⟩ := closeData_spec (S := {aS} + ptrBlocks (symPtrs syms)) (T := []) (M := M) (m := m6) (f := f)
            (c := { openCell true s with ndatarows := (series true sep lines).length, datarows := .block m.next, nodes := (fields sep line).length, symbols := .block aS })
            (w6.as (by simp only [openCell, blocks_block, scolsBlocks, MemPtr.blocks, List.map_nil, List.sum_nil]; abel))
            (by rw [k6.same _ (by simp), k5.same _ (by simp), b4]) (by simp [openCell]) (by simp [openCell]) (by simp)
            (Or.inr ⟨aS, _, rfl, by rw [k6.same _ (by simp), k5.same _ (by simp), c4], by simp [symPtrs, hsl], symPtrs_junk _, rfl⟩) (Or.inl ⟨rfl, rfl⟩)
          refine ⟨m6, ({aS} + ptrBlocks (symPtrs syms)) + {m.next}, hline _ _ a3 _ (Or.inr ⟨by simp, ?_⟩), w6.as (by abel), k06, m7, a7, w7, k06.trans k7⟩
          unfold headerLine
          rw [a4, ok_bind]
          simp only [Bool.not_true, Bool.false_eq_true, if_false]
          rw [fileCellAt_eq b4, ok_bind]
          simp only [a5, beq_self_eq_true, if_true, a6, ok_bind]
        · rw [hfail] at f5; cases f5

end Nip
