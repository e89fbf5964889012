import Verif.DataMemoryAnalyse

/-! # Lemmas about the memory of data files: the analysis of a whole file -/

namespace Nip

open Res Spec Store

theorem DBase.Full.sub_rows (F : DBase) (D : DCols) (M : Multiset Nat) : ({F.d} + ({D.p} + (colsBlocks D.cols + ({F.f} + ({F.s} + (D.fixed + M)))))) =
    {D.p} + (colsBlocks D.cols + ({F.f} + ({F.s} + ({F.d} + (D.fixed + M))))) := by abel

/-- A line of data before the columns are known. -/
theorem dataLine_empty {F : DBase} {t t' : Analysis} {m : FileMemory} {M : Multiset Nat} {b n r : Nat} {line : List Char} {names : MemPtr} {rows : List Nat}
    (h : F.Empty t m ({b} + M)) (hr : rd t.datarows t'.ts = ok r) (hw : wr t.datarows t'.ts (r + 1) = ok rows) (h1 : t'.datarows = rows) (h2 : t'.state ≤ 2) (h3 : t'.symbols = [])
    (h4 : t'.names = none) :
    ∃ m', m.dataLine (.block F.f) t'.ts names line (.block b) n = ok (true, m') ∧ F.Empty t' m' M ∧ m.Keeps m' M := by
  have hlt : t'.ts < t.datarows.length := (List.getElem?_eq_some_iff.1 (rd_eq_ok.1 hr)).1
  rw [wr_lt hlt] at hw
  cases hw
  obtain ⟨m1, a1, w1, b1, k1, n1⟩ := Within.setFileInt (a := F.d) (i := t'.ts) (M := {F.f} + ({F.s} + ({b} + M))) (m := m) (h.within.as (by abel)) h.rows hlt (r + 1)
  obtain ⟨m2, a2, w2, k2, n2⟩ := Within.release (q := .block b) (by simp) (m := m1) (M := {F.f} + ({F.s} + ({F.d} + M))) (w1.as (by rw [blocks_block]; abel))
  refine ⟨m2, ?_, ⟨w2, ?_, ?_, ?_, ?_, h2, h3, h4⟩, (k1.mono ?_).trans (k2.mono ?_)⟩
  · unfold dataLine
    obtain ⟨c, hc, hcn, hcd⟩ : ∃ c, m.blocks F.f = some (.file c) ∧ c.nodes = 0 ∧ c.datarows = .block F.d := ⟨_, h.file, rfl, rfl⟩
    rw [fileCellAt_eq hc, ok_bind]
    rw [hcn, hcd, fileIntsAt_eq h.rows, ok_bind, hr, ok_bind, a1, ok_bind]
    have hi : ¬ (if 0 < n then 0 else n) > 0 := by split <;> omega
    simp only [ok_bind, if_true, a2]
    rw [if_neg hi]
  · rw [k2.same _ (by simp), k1.same _ (by simp), h.text]
  · rw [k2.same _ (by simp), b1, h1]
  · intro k; rw [k2.fails, k1.fails]; exact h.fails k
  · rw [k2.same _ (by simp), k1.same _ (by simp), h.file]
  · rw [Multiset.le_iff_exists_add]; exact ⟨{F.f} + {F.s} + {b}, by abel⟩
  · rw [Multiset.le_iff_exists_add]; exact ⟨{F.f} + {F.s} + {F.d}, by abel⟩

/-- A line of data. -/
theorem dataLine_full {F : DBase} {D : DCols} {t t' : Analysis} {m : FileMemory} {M : Multiset Nat} {b n r : Nat} {line : List Char} {bounds : List Nat} {rows : List Nat}
    (h : F.Full D t m ({b} + M)) (hb : m.blocks b = some (.ints bounds)) (hr : rd t.datarows t'.ts = ok r) (hw : wr t.datarows t'.ts (r + 1) = ok rows) (h1 : t'.datarows = rows)
    (h2 : t'.state ≤ 1) (h3 : t'.symbols = t.symbols) {N' : List (List (List Char))} (h4 : t'.names = some N')
    (h5 : accumulateStateNames (D.cols.map NCol.names) line bounds (if D.syms.length < n then D.syms.length else n) = ok N') :
    ∃ m' D', m.dataLine (.block F.f) t'.ts (.block D.p) line (.block b) n = ok (true, m') ∧ F.Full D' t' m' M ∧ D'.p = D.p ∧ m.Keeps m' M := by
  have hlt : t'.ts < t.datarows.length := (List.getElem?_eq_some_iff.1 (rd_eq_ok.1 hr)).1
  rw [wr_lt hlt] at hw
  cases hw
  obtain ⟨m1, a1, w1, b1, k1, n1⟩ := Within.setFileInt (a := F.d) (i := t'.ts) (M := {b} + ({D.p} + (colsBlocks D.cols + ({F.f} + ({F.s} + (D.fixed + M)))))) (m := m)
    (h.within.as (by abel)) h.rows hlt (r + 1)
  have hf1 : ∀ k, m1.fails k = false := by intro k; rw [k1.fails]; exact h.fails k
  have g1 : ∀ c ∈ D.cols, c.Good m1 := fun c hc => (h.good c hc).keep (k1.mono ((colsBlocks_mem hc).trans (by
    rw [Multiset.le_iff_exists_add]; exact ⟨{b} + {D.p} + ({F.f} + ({F.s} + (D.fixed + M))), by abel⟩))).same
  rw [accumulate_from] at h5
  obtain ⟨m2, C', a2, w2, c2, g2, e2, k2⟩ := addNames_spec (s := D.p) (b := b) _ 0 D.cols (m := m1) (M := {F.d} + ({F.f} + ({F.s} + (D.fixed + M))))
    (w1.as (by abel)) (by rw [k1.same _ (by simp), hb]) (by rw [k1.same _ (by simp), h.lists]) g1 hf1 h5
  obtain ⟨m3, a3, w3, k3, n3⟩ := Within.release (q := .block b) (by simp) (m := m2) (M := {D.p} + (colsBlocks C' + ({F.d} + ({F.f} + ({F.s} + (D.fixed + M)))))) (w2.as (by rw [blocks_block]))
  let R : Multiset Nat := {D.p} + ({F.f} + ({F.s} + (D.fixed + M)))
  have k02 : m.Keeps m2 R := by
    refine (k1.mono ?_).trans (k2.mono ?_)
    · rw [Multiset.le_iff_exists_add]; exact ⟨{b} + colsBlocks D.cols, by simp only [R]; abel⟩
    · rw [Multiset.le_iff_exists_add]; exact ⟨{b} + {F.d}, by simp only [R]; abel⟩
  have k03 : m.Keeps m3 R := by
    refine k02.trans (k3.mono ?_)
    rw [Multiset.le_iff_exists_add]; exact ⟨colsBlocks C' + {F.d}, by simp only [R]; abel⟩
  have hlen : C'.length = D.cols.length := by simpa [colPtrs] using congrArg List.length c2
  have hfix : ∀ y ∈ D.fixed, m3.blocks y = m.blocks y := fun y hy => k03.same y (by simp [R, hy])
  refine ⟨m3, { D with cols := C' }, ?_, ⟨w3.as ?_, ?_, ?_, ?_, ?_, h2, ?_, ?_, ?_, ?_, ?_, ?_, ?_, ?_, ?_⟩, rfl, k03.mono ?_⟩
  · unfold dataLine
    obtain ⟨c, hc, hcn, hcd⟩ : ∃ c, m.blocks F.f = some (.file c) ∧ c.nodes = D.syms.length ∧ c.datarows = .block F.d := ⟨_, h.file, rfl, rfl⟩
    rw [fileCellAt_eq hc, ok_bind]
    rw [hcn, hcd, fileIntsAt_eq h.rows, ok_bind, hr, ok_bind, a1, ok_bind]
    by_cases hi : (if D.syms.length < n then D.syms.length else n) > 0
    · rw [if_pos hi, a2, ok_bind]
      simp only [if_true, a3, ok_bind]
    · have h0 : (if D.syms.length < n then D.syms.length else n) = 0 := by omega
      rw [h0] at a2
      cases a2
      rw [if_neg hi]
      simp only [ok_bind, if_true, a3]
  · simp only [DCols.fixed]; abel
  · rw [k03.same _ (by simp [R]), h.text]
  · rw [k3.same _ (by simp), k2.same _ (by simp), b1, h1]
  · intro k; rw [k03.fails]; exact h.fails k
  · rw [k03.same _ (by simp [R]), h.file]; rfl
  · rw [h3, h.symbols]
  · rw [h4, e2]
  · rw [hlen]; exact h.length
  · rw [hfix _ (by simp [DCols.fixed]), h.syms]
  · intro s hs
    have hm := mem_symPtrs hs
    rw [hfix _ (by simp [DCols.fixed, hm])]
    exact h.symText s hs
  · rw [hfix _ (by simp [DCols.fixed]), h.counts]
  · rw [hfix _ (by simp [DCols.fixed]), h.states]
  · rw [k03.same _ (by simp [R]), h.lists, c2]
  · intro c hc
    refine (g2 c hc).keep (k3.mono ((colsBlocks_mem hc).trans ?_)).same
    rw [Multiset.le_iff_exists_add]; exact ⟨{D.p} + ({F.d} + ({F.f} + ({F.s} + (D.fixed + M)))), by abel⟩
  · rw [Multiset.le_iff_exists_add]; exact ⟨{D.p} + ({F.f} + ({F.s} + D.fixed)), by simp only [R]; abel⟩

theorem DBase.Empty.alloc {F : DBase} {t : Analysis} {m m' : FileMemory} {M : Multiset Nat} {b : Nat} (h : F.Empty t m M) (k : m.Keeps m' ({F.f} + ({F.s} + ({F.d} + M))))
    (w : m'.Within ({b} + ({F.f} + ({F.s} + ({F.d} + M))))) : F.Empty t m' ({b} + M) :=
  ⟨w.as (by abel), by rw [k.same _ (by simp), h.text], by rw [k.same _ (by simp), h.rows], by intro j; rw [k.fails]; exact h.fails j, by rw [k.same _ (by simp), h.file], h.state, h.symbols,
    h.names⟩

theorem DBase.Full.alloc {F : DBase} {D : DCols} {t : Analysis} {m m' : FileMemory} {M : Multiset Nat} {b : Nat} (h : F.Full D t m M)
    (k : m.Keeps m' ({D.p} + (colsBlocks D.cols + ({F.f} + ({F.s} + ({F.d} + (D.fixed + M))))))) (w : m'.Within ({b} + ({D.p} + (colsBlocks D.cols + ({F.f} + ({F.s} + ({F.d} + (D.fixed + M)))))))) :
    F.Full D t m' ({b} + M) := by
  refine ⟨w.as (by abel), by rw [k.same _ (by simp), h.text], by rw [k.same _ (by simp), h.rows], by intro j; rw [k.fails]; exact h.fails j, by rw [k.same _ (by simp), h.file], h.state, h.symbols,
    h.names, h.length, by rw [k.same _ (by simp [DCols.fixed]), h.syms], fun s hs => ?_, by rw [k.same _ (by simp [DCols.fixed]), h.counts], by rw [k.same _ (by simp [DCols.fixed]), h.states],
    by rw [k.same _ (by simp), h.lists], fun c hc => (h.good c hc).keep (k.mono ((colsBlocks_mem hc).trans ?_)).same⟩
  · have hm := mem_symPtrs hs
    rw [k.same _ (by simp [DCols.fixed, hm])]
    exact h.symText s hs
  · rw [Multiset.le_iff_exists_add]; exact ⟨{D.p} + ({F.f} + ({F.s} + ({F.d} + (D.fixed + M)))), by abel⟩

/-- A line in memory is the line of `analyseStep`. -/
theorem line_spec {F : DBase} {sep : Char} {line : List Char} {t t' : Analysis} {p : MemPtr} {m : FileMemory} {M : Multiset Nat} (h : F.Run t p m M)
    (hs : analyseStep sep F.header line t = ok (some t')) : ∃ m' p', m.lineInMemory (.block F.f) sep line (fileRun t p) = ok (some (fileRun t' p'), m') ∧ F.Run t' p' m' M ∧ m.Keeps m' M := by
  unfold analyseStep at hs
  rw [countTokens_fields, ok_bind] at hs
  by_cases hn : (fields sep line).length = 0
  · rw [if_pos hn] at hs
    cases hs
    refine ⟨m, p, ?_, ?_, Keeps.refl _ _⟩
    · unfold lineInMemory
      rw [countTokens_fields, ok_bind, if_pos hn]
      rfl
    · rcases h with ⟨h, rfl⟩ | ⟨D, h, rfl⟩
      · exact Or.inl ⟨⟨h.within, h.text, h.rows, h.fails, h.file, h.state, h.symbols, h.names⟩, rfl⟩
      · exact Or.inr ⟨D, ⟨h.within, h.text, h.rows, h.fails, h.file, h.state, h.symbols, h.names, h.length, h.syms, h.symText, h.counts, h.states, h.lists, h.good⟩, rfl⟩
  · rw [if_neg hn] at hs
    obtain ⟨a, ha, hw⟩ := tokenise_fields sep line (by omega)
    rw [ha, ok_bind] at hs
    simp only at hs
    have start : ∀ (m1 : FileMemory), m.alloc (.ints a) = (.block m.next, m1) → ∀ X, (do
        let t : FileRun := { state := t.state - 1, ts := if t.empty > 0 ∧ t.state < 1 then t.ts + 1 else t.ts, empty := 0, names := p }
        if t.state > 0 then do
          let (s, m) ← m1.headerLine (.block F.f) line (.block m.next) (fields sep line).length
          match s with
          | none => ok (none, m)
          | some s => ok (some { t with names := s }, m)
        else do
          let (good, m) ← m1.dataLine (.block F.f) t.ts t.names line (.block m.next) (fields sep line).length
          if good then ok (some t, m) else ok (none, m)) = X → m.lineInMemory (.block F.f) sep line (fileRun t p) = X := by
      rintro m1 e X rfl
      unfold lineInMemory
      rw [countTokens_fields, ok_bind, if_neg hn, ha, ok_bind]
      simp only [e]
      rw [if_neg (by simp)]
      rfl
    by_cases hst : t.state - 1 > 0
    · rw [if_pos hst] at hs
      obtain ⟨symbols, hsym, hs⟩ := bind_ok hs
      cases hs
      have hh : F.header = true := by
        cases hF : F.header with
        | true => rfl
        | false =>
          rw [hF] at hsym
          unfold setNodeSymbols at hsym
          rw [if_neg (by simp), if_neg hn] at hsym
          cases hsym
      rw [hh, setNodeSymbols_eq sep line a hw] at hsym
      cases hsym
      rcases h with ⟨h, rfl⟩ | ⟨D, h, rfl⟩
      · obtain ⟨m1, a1, w1, b1, k1, n1⟩ := h.within.given (h.fails _) (.ints a)
        have h' := h.alloc k1 w1
        have hle := h.state
        obtain ⟨m2, D, a2, f2, k2⟩ := headerLine_spec (words := fields sep line) h' hh b1 hw
          (t' := { t with ts := if t.empty > 0 ∧ t.state < 1 then t.ts + 1 else t.ts, empty := 0, state := t.state - 1, symbols := fields sep line, names := some (List.replicate (fields sep line).length []) }) rfl (by simp only; omega) rfl rfl
        refine ⟨m2, .block D.p, start m1 a1 _ ?_, Or.inr ⟨D, f2, rfl⟩, (k1.mono ?_).trans k2⟩
        · simp only [hst, if_true, a2, ok_bind]
          rfl
        · rw [Multiset.le_iff_exists_add]; exact ⟨{F.f} + {F.s} + {F.d}, by abel⟩
      · have := h.state; omega
    · rw [if_neg hst] at hs
      obtain ⟨r, hr, hs⟩ := bind_ok hs
      obtain ⟨rows, hrows, hs⟩ := bind_ok hs
      rcases h with ⟨h, rfl⟩ | ⟨D, h, rfl⟩
      · obtain ⟨m1, a1, w1, b1, k1, n1⟩ := h.within.given (h.fails _) (.ints a)
        have h' := h.alloc k1 w1
        simp only [h.symbols, List.length_nil] at hs
        rw [if_neg (by split <;> omega)] at hs
        cases hs
        obtain ⟨m2, a2, f2, k2⟩ := dataLine_empty (n := (fields sep line).length) (line := line) (names := .null) h'
          (t' := { t with ts := if t.empty > 0 ∧ t.state < 1 then t.ts + 1 else t.ts, empty := 0, state := t.state - 1, datarows := rows, symbols := [] })
          hr hrows rfl (by have := h.state; simp only; omega) rfl h.names
        refine ⟨m2, .null, start m1 a1 _ ?_, Or.inl ⟨f2, rfl⟩, (k1.mono ?_).trans k2⟩
        · simp only at a2
          simp only [hst, if_false, a2, ok_bind, if_true]
          rfl
        · rw [Multiset.le_iff_exists_add]; exact ⟨{F.f} + {F.s} + {F.d}, by abel⟩
      · obtain ⟨m1, a1, w1, b1, k1, n1⟩ := h.within.given (h.fails _) (.ints a)
        have h' := h.alloc k1 w1
        have hlen : t.symbols.length = D.syms.length := by rw [h.symbols, List.length_map]
        have key : ∃ N', accumulateStateNames (D.cols.map NCol.names) line a (if D.syms.length < (fields sep line).length then D.syms.length else (fields sep line).length) = ok N' ∧
            t' = { t with ts := if t.empty > 0 ∧ t.state < 1 then t.ts + 1 else t.ts, empty := 0, state := t.state - 1, datarows := rows, names := some N' } := by
          simp only [hlen] at hs
          by_cases hi : (if D.syms.length < (fields sep line).length then D.syms.length else (fields sep line).length) > 0
          · rw [if_pos hi] at hs
            simp only [h.names] at hs
            obtain ⟨N', hN, hs⟩ := bind_ok hs
            cases hs
            exact ⟨N', hN, rfl⟩
          · rw [if_neg hi] at hs
            cases hs
            refine ⟨_, ?_, by rw [← h.names]⟩
            rw [show (if D.syms.length < (fields sep line).length then D.syms.length else (fields sep line).length) = 0 by omega]
            rfl
        obtain ⟨N', hN, ht'⟩ := key
        obtain ⟨m2, D', a2, f2, p2, k2⟩ := dataLine_full (t' := t') h' b1 (n := (fields sep line).length) (line := line) (r := r) (rows := rows) (by rw [ht']; exact hr) (by rw [ht']; exact hrows)
          (by rw [ht']) (by rw [ht']; have := h.state; simp only; omega) (by rw [ht']) (N' := N') (by rw [ht']) hN
        refine ⟨m2, .block D'.p, start m1 a1 _ ?_, Or.inr ⟨D', f2, rfl⟩, (k1.mono ?_).trans k2⟩
        · rw [ht'] at a2
          simp only at a2
          simp only [hst, if_false, a2, ok_bind, if_true]
          rw [ht', p2]
          rfl
        · rw [Multiset.le_iff_exists_add]; exact ⟨{D.p} + colsBlocks D.cols + {F.f} + {F.s} + {F.d} + D.fixed, by abel⟩

/-- All lines. -/
theorem lines_spec {F : DBase} {sep : Char} (total : Nat) (lines pre : List (List Char)) {t : Analysis} {p : MemPtr} {m : FileMemory} {M : Multiset Nat} (h : F.Run t p m M)
    (hi : AnaInv F.header sep total pre t) (htot : (series F.header sep (pre ++ lines)).length ≤ total) :
    ∃ m' p' t', linesInMemory (.block F.f) sep lines (fileRun t p) m = ok (some (fileRun t' p'), m') ∧ F.Run t' p' m' M ∧ m.Keeps m' M ∧ AnaInv F.header sep total (pre ++ lines) t' := by
  induction lines generalizing pre t p m with
  | nil => exact ⟨m, p, t, rfl, h, Keeps.refl _ _, by simpa using hi⟩
  | cons l rest ih =>
    have hm := series_length_mono F.header sep (pre ++ [l]) rest
    rw [List.append_assoc, List.singleton_append] at hm
    obtain ⟨t1, e1, i1⟩ := analyseStep_inv F.header sep total pre l t hi (hm.trans htot)
    obtain ⟨m1, p1, a1, r1, k1⟩ := line_spec h e1
    obtain ⟨m2, p2, t2, a2, r2, k2, i2⟩ := ih (pre ++ [l]) r1 i1 (by rw [List.append_assoc]; exact htot)
    refine ⟨m2, p2, t2, ?_, r2, k1.trans k2, by rw [List.append_assoc] at i2; exact i2⟩
    rw [linesInMemory, a1, ok_bind]
    exact a2

/-- the file after the analysis -/
structure DBase.Done (F : DBase) (D : DCols) (T : List SCol) (rows : List Nat) (m : FileMemory) (M : Multiset Nat) : Prop where
  within : m.Within ({F.f} + ({F.s} + ({F.d} + (D.fixed + (scolsBlocks T + M)))))
  text : m.blocks F.s = some (.text F.name)
  rows : m.blocks F.d = some (.ints rows)
  file : m.blocks F.f = some (.file (F.cellWith D))
  length : T.length = D.syms.length
  syms : m.blocks D.a = some (.pointers (symPtrs D.syms))
  symText : ∀ s ∈ D.syms, m.blocks s.1 = some (.text s.2)
  counts : m.blocks D.k = some (.ints (T.map (fun x => x.links.length)))
  states : m.blocks D.x = some (.pointers (T.map SCol.ptr))
  good : ∀ c ∈ T, c.Good m

/-- the names of the states -/
def SCol.names (c : SCol) : List (List Char) := c.links.map NLink.text

theorem set_replicate_zero (l : List Nat) (r x : Nat) : (l ++ List.replicate (r + 1) 0).set l.length x = (l ++ [x]) ++ List.replicate r 0 := by
  rw [List.set_append_right _ _ le_rfl, Nat.sub_self, List.replicate_succ, List.set_cons_zero, List.append_assoc]
  rfl

/-- One list becomes an array. -/
theorem storeNames_spec {F : DBase} {D : DCols} {m : FileMemory} {M : Multiset Nat} {T : List SCol} {c : NCol} {C : List NCol} {i r : Nat}
    (h : m.Within (c.blocks + ({D.k} + ({D.x} + ({D.p} + ({F.f} + M)))))) (hf : ∀ k, m.fails k = false) (hfile : m.blocks F.f = some (.file (F.cellWith D)))
    (hk : m.blocks D.k = some (.ints (T.map (fun x => x.links.length) ++ List.replicate (r + 1) 0))) (hx : m.blocks D.x = some (.pointers (T.map SCol.ptr ++ List.replicate (r + 1) .null)))
    (hp : m.blocks D.p = some (.pointers (colPtrs C))) (hC : C[i]? = some c) (hi : T.length = i) (hg : c.Good m) :
    ∃ m' x, m.storeNames (.block F.f) (.block D.p) i = ok m' ∧ m'.Within (x.blocks + ({D.k} + ({D.x} + ({D.p} + ({F.f} + M))))) ∧ SCol.Good x m' ∧ x.names = c.names ∧
      m'.blocks D.k = some (.ints ((T ++ [x]).map (fun x => x.links.length) ++ List.replicate r 0)) ∧ m'.blocks D.x = some (.pointers ((T ++ [x]).map SCol.ptr ++ List.replicate r .null)) ∧
      m.Keeps m' ({D.p} + ({F.f} + M)) := by
  have hCi : m.filePtrAt (.block D.p) i = ok (.block c.addr) := by
    unfold filePtrAt
    rw [filePtrsAt_eq hp, ok_bind, rd_eq_ok]
    simp [colPtrs, hC]
  obtain ⟨m1, a1, w1, b1, k1, n1⟩ := Within.setFileInt (a := D.k) (i := i) (M := c.blocks + ({D.x} + ({D.p} + ({F.f} + M)))) (m := m) (h.as (by abel)) hk (by simp [hi]) c.links.length
  have hset := set_replicate_zero (T.map (fun x => x.links.length)) r c.links.length
  rw [List.length_map, hi] at hset
  rw [hset] at b1
  have g1 : c.Good m1 := hg.keep (k1.mono (Multiset.le_add_right _ _)).same
  have hf1 : ∀ k, m1.fails k = false := by intro k; rw [k1.fails]; exact hf k
  have key : ∃ m2 q, m1.namesToArray (.block c.addr) = ok (q, m2) ∧ m2.Within (c.blocks + (q.blocks + ({D.k} + ({D.x} + ({D.p} + ({F.f} + M)))))) ∧
      m1.Keeps m2 (c.blocks + ({D.k} + ({D.x} + ({D.p} + ({F.f} + M))))) ∧
      ((q = .null ∧ c.links = []) ∨ (c.links ≠ [] ∧ ∃ a, q = .block a ∧ m2.blocks a = some (.pointers (textPtrs c.links)))) := by
    rcases namesToArray_spec (M := {D.k} + ({D.x} + ({D.p} + ({F.f} + M)))) (w1.as (by abel)) g1 hf1 with ⟨e, a2⟩ | ⟨e, m2, a2, w2, b2, k2, n2⟩
    · exact ⟨m1, .null, a2, w1.as (by simp only [MemPtr.blocks, zero_add]; abel), Keeps.refl _ _, Or.inl ⟨rfl, e⟩⟩
    · exact ⟨m2, .block m1.next, a2, w2.as (by rw [blocks_block]; abel), k2, Or.inr ⟨e, _, rfl, b2⟩⟩
  obtain ⟨m2, q, a2, w2, k2, q2⟩ := key
  have g2 : c.Good m2 := g1.keep (k2.mono (Multiset.le_add_right _ _)).same
  have hx2 : m2.blocks D.x = some (.pointers (T.map SCol.ptr ++ List.replicate (r + 1) .null)) := by rw [k2.same _ (by simp), k1.same _ (by simp), hx]
  obtain ⟨m3, a3, w3, b3, k3, n3⟩ := Within.setFilePtr (a := D.x) (i := i) (M := c.blocks + (q.blocks + ({D.k} + ({D.p} + ({F.f} + M))))) (m := m2) (w2.as (by abel)) hx2 (by simp [hi]) q
  have hset := set_replicate_null (T.map SCol.ptr) r q
  rw [List.length_map, hi] at hset
  rw [hset] at b3
  have g3 : c.Good m3 := g2.keep (k3.mono (Multiset.le_add_right _ _)).same
  obtain ⟨m4, m5, a4, a5, w5, k5, n5⟩ := emptyNames_spec (c := c) (M := {D.x} + (q.blocks + ({D.k} + ({D.p} + ({F.f} + M))))) (m := m3) (w3.as (by abel)) g3
  refine ⟨m5, ⟨q, c.links⟩, ?_, w5.as ?_, ⟨?_, ?_⟩, rfl, ?_, ?_, ?_⟩
  · unfold storeNames
    rw [fileCellAt_eq hfile, ok_bind, hCi, ok_bind, nameListAt_eq hg.head, ok_bind]
    simp only [DBase.cellWith]
    rw [a1, ok_bind, a2, ok_bind]
    simp only
    rw [a3, ok_bind, a4, ok_bind, a5]
  · simp only [SCol.blocks]; abel
  · rcases q2 with q2 | ⟨q2, a, rfl, q4⟩
    · exact Or.inl q2
    · refine Or.inr ⟨q2, a, rfl, ?_⟩
      rw [k5.same _ (by simp [blocks_block]), k3.same _ (by simp [blocks_block]), q4]
  · intro k hk'
    rw [k5.same _ (Multiset.mem_add.2 (Or.inl (mem_textPtrs hk')))]
    exact g3.text k hk'
  · rw [k5.same _ (by simp), k3.same _ (by simp), k2.same _ (by simp), b1]; simp
  · rw [k5.same _ (by simp), b3]; simp
  · refine ((k1.mono ?_).trans (k2.mono ?_)).trans ((k3.mono ?_).trans (k5.mono ?_))
    · rw [Multiset.le_iff_exists_add]; exact ⟨c.blocks + {D.x}, by abel⟩
    · rw [Multiset.le_iff_exists_add]; exact ⟨c.blocks + {D.x} + {D.k}, by abel⟩
    · rw [Multiset.le_iff_exists_add]; exact ⟨c.blocks + q.blocks + {D.k}, by abel⟩
    · rw [Multiset.le_iff_exists_add]; exact ⟨ptrBlocks (textPtrs c.links) + {D.x} + q.blocks + {D.k}, by abel⟩

/-- All lists become arrays. -/
theorem storeAll_spec {F : DBase} {D : DCols} {t : Analysis} {m : FileMemory} {M : Multiset Nat} (h : F.Full D t m M) :
    ∃ m' m'' T, loop D.syms.length (fun i m => m.storeNames (.block F.f) (.block D.p) i) m = ok m' ∧ m'.free (.block D.p) = ok m'' ∧ F.Done D T t.datarows m'' M ∧
      T.map SCol.names = D.cols.map NCol.names ∧ m.Keeps m'' M := by
  let G : Multiset Nat := {D.p} + ({F.f} + ({F.s} + ({F.d} + ({D.a} + (ptrBlocks (symPtrs D.syms) + M)))))
  obtain ⟨m1, a1, T, w1, f1, k1, x1, l1, g1, e1, kk1⟩ := loop_inv (n := D.syms.length) (f := fun i (m : FileMemory) => m.storeNames (.block F.f) (.block D.p) i) (s := m)
    (fun i m' => ∃ T, m'.Within (scolsBlocks T + (colsBlocks (D.cols.drop i) + ({D.k} + ({D.x} + G)))) ∧ (∀ k, m'.fails k = false) ∧
      m'.blocks D.k = some (.ints (T.map (fun x => x.links.length) ++ List.replicate (D.syms.length - i) 0)) ∧
      m'.blocks D.x = some (.pointers (T.map SCol.ptr ++ List.replicate (D.syms.length - i) .null)) ∧ T.length = i ∧ (∀ c ∈ T, c.Good m') ∧
      T.map SCol.names = (D.cols.take i).map NCol.names ∧ m.Keeps m' (colsBlocks (D.cols.drop i) + G))
    ⟨[], h.within.as (by simp only [G, DCols.fixed, scolsBlocks, List.map_nil, List.sum_nil, List.drop_zero]; abel), h.fails, by simpa using h.counts, by simpa using h.states, rfl, by simp,
      by simp, Keeps.refl _ _⟩ (by
      rintro i hi m1 ⟨T, w1, f1, k1, x1, l1, g1, e1, kk1⟩
      have hiC : i < D.cols.length := by rw [h.length]; exact hi
      obtain ⟨r, hr⟩ : ∃ r, D.syms.length - i = r + 1 := ⟨D.syms.length - i - 1, by omega⟩
      rw [List.drop_eq_getElem_cons hiC, colsBlocks_cons] at w1 kk1
      obtain ⟨m2, x, a2, w2, g2, e2, k2, x2, kk2⟩ := storeNames_spec (F := F) (D := D) (T := T) (c := D.cols[i]) (C := D.cols) (i := i) (r := r)
        (M := scolsBlocks T + (colsBlocks (D.cols.drop (i + 1)) + ({F.s} + ({F.d} + ({D.a} + (ptrBlocks (symPtrs D.syms) + M)))))) (m := m1)
        (w1.as (by simp only [G]; abel)) f1 (by rw [kk1.same _ (by simp [G]), h.file]) (by rw [k1, hr]) (by rw [x1, hr]) (by rw [kk1.same _ (by simp [G]), h.lists])
        (List.getElem?_eq_getElem hiC) l1 ((h.good _ (List.getElem_mem hiC)).keep (kk1.mono ((Multiset.le_add_right _ _).trans (Multiset.le_add_right _ _))).same)
      refine ⟨m2, a2, T ++ [x], w2.as ?_, ?_, ?_, ?_, by simp [l1], ?_, ?_, ?_⟩
      · rw [scolsBlocks_append, scolsBlocks_cons]
        simp only [G, scolsBlocks, List.map_nil, List.sum_nil]
        abel
      · intro k; rw [kk2.fails]; exact f1 k
      · rw [k2, show D.syms.length - (i + 1) = r by omega]
      · rw [x2, show D.syms.length - (i + 1) = r by omega]
      · intro c hc
        rcases List.mem_append.1 hc with hc | hc
        · refine (g1 c hc).keep (kk2.mono ((scolsBlocks_mem hc).trans ?_)).same
          rw [Multiset.le_iff_exists_add]
          exact ⟨{D.p} + {F.f} + (colsBlocks (D.cols.drop (i + 1)) + ({F.s} + ({F.d} + ({D.a} + (ptrBlocks (symPtrs D.syms) + M))))), by abel⟩
        · rw [List.mem_singleton.1 hc]; exact g2
      · rw [List.map_append, e1, List.take_succ_eq_append_getElem hiC, List.map_append, List.map_singleton, List.map_singleton, e2]
      · refine (kk1.mono ?_).trans (kk2.mono ?_)
        · rw [add_assoc]; exact Multiset.le_add_left _ _
        · rw [Multiset.le_iff_exists_add]; exact ⟨scolsBlocks T, by simp only [G]; abel⟩)
  rw [← h.length, List.drop_length, List.take_length] at *
  have w1' : m1.Within ({D.p} + ({F.f} + ({F.s} + ({F.d} + (D.fixed + (scolsBlocks T + M)))))) := w1.as (by
    simp only [G, DCols.fixed, colsBlocks, List.map_nil, List.sum_nil]; abel)
  obtain ⟨m2, a2, w2, k2, n2⟩ := Within.release (q := .block D.p) (by simp) (m := m1) (M := {F.f} + ({F.s} + ({F.d} + (D.fixed + (scolsBlocks T + M))))) w1'
  rw [Nat.sub_self] at k1 x1
  have kk1' : m.Keeps m1 G := kk1.mono (Multiset.le_add_left _ _)
  refine ⟨m1, m2, T, a1, a2, ⟨w2, ?_, ?_, ?_, ?_, ?_, ?_, ?_, ?_, ?_⟩, e1, (kk1'.mono ?_).trans (k2.mono ?_)⟩
  · rw [k2.same _ (by simp), kk1'.same _ (by simp [G]), h.text]
  · rw [k2.same _ (by simp), kk1'.same _ (by simp [G]), h.rows]
  · rw [k2.same _ (by simp), kk1'.same _ (by simp [G]), h.file]
  · rw [l1, h.length]
  · rw [k2.same _ (by simp [DCols.fixed]), kk1'.same _ (by simp [G]), h.syms]
  · intro s hs
    have hm := mem_symPtrs hs
    rw [k2.same _ (by simp [DCols.fixed, hm]), kk1'.same _ (by simp [G, hm])]
    exact h.symText s hs
  · rw [k2.same _ (by simp [DCols.fixed]), k1]; simp
  · rw [k2.same _ (by simp [DCols.fixed]), x1]; simp
  · intro c hc
    refine (g1 c hc).keep (k2.mono ((scolsBlocks_mem hc).trans ?_)).same
    rw [Multiset.le_iff_exists_add]; exact ⟨{F.f} + ({F.s} + ({F.d} + (D.fixed + M))), by abel⟩
  · rw [Multiset.le_iff_exists_add]; exact ⟨{D.p} + ({F.f} + ({F.s} + ({F.d} + ({D.a} + ptrBlocks (symPtrs D.syms))))), by simp only [G]; abel⟩
  · rw [Multiset.le_iff_exists_add]; exact ⟨{F.f} + ({F.s} + ({F.d} + (D.fixed + scolsBlocks T))), by abel⟩

end Nip
