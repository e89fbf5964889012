import Verif.DataMemorySafe
import Verif.Props.DataFile
import Verif.Props.PotentialMemory
import Mathlib.Tactic.IntervalCases

/-!
# C108: the memory of data files

`Verif/Spec/DataMemory.lean` says how many blocks of memory a file needs; `Verif/DataMemory.lean` is the code.
-/

namespace Nip.Props

open Nip Res Spec Store

/-- The pointer leads to an array of texts; for no texts it is NULL. -/
def HoldsTexts (m : FileMemory) (array : MemPtr) (texts : List (List Char)) : Prop :=
  (texts = [] ∧ array = .null) ∨
  (texts ≠ [] ∧ ∃ ptrs, m.filePtrsAt array = ok ptrs ∧ ptrs.length = texts.length ∧ ∀ (i : Nat) (w : List Char), texts[i]? = some w → ∃ q, ptrs[i]? = some q ∧ m.nameTextAt q = ok w)

/-- The pointer leads to a file with this name, these numbers of lines, these names of columns and these names of states. -/
def HoldsFile (m : FileMemory) (p : MemPtr) (name : List Char) (rows : List Nat) (columns : List (List Char)) (states : List (List (List Char))) : Prop :=
  ∃ c, m.fileCellAt p = ok c ∧ m.nameTextAt c.name = ok name ∧ c.ndatarows = rows.length ∧ m.fileIntsAt c.datarows = ok rows ∧ c.nodes = columns.length ∧ HoldsTexts m c.symbols columns ∧
    states.length = columns.length ∧ (columns ≠ [] → m.fileIntsAt c.counts = ok (states.map List.length)) ∧
    ∀ (j : Nat) (names : List (List Char)), states[j]? = some names → ∃ q, m.filePtrAt c.states j = ok q ∧ HoldsTexts m q names

/-- Everything that was in memory is still there, unchanged. -/
def FileUntouched (m m' : FileMemory) : Prop := ∀ b x, m.blocks b = some x → m'.blocks b = some x

theorem file_untouched {m m' : FileMemory} {M : Multiset Nat} (h : m.Within M) (hk : m.Keeps m' M) : FileUntouched m m' := by
  intro b x hx
  rw [hk.same b ((h.used b).1 (by rw [hx]; rfl)), hx]

theorem holds_states {c : SCol} {m : FileMemory} (h : c.Good m) : HoldsTexts m c.ptr c.names := by
  rcases h.array with ⟨h1, h2⟩ | ⟨h1, a, h2, h3⟩
  · exact Or.inl ⟨by unfold SCol.names; rw [h2]; rfl, h1⟩
  · refine Or.inr ⟨by unfold SCol.names; simpa using h1, _, by rw [h2]; exact filePtrsAt_eq h3, by simp [textPtrs, SCol.names], fun i w hi => ?_⟩
    unfold SCol.names at hi
    rw [List.getElem?_map] at hi
    obtain ⟨k, hk, rfl⟩ := Option.map_eq_some_iff.1 hi
    exact ⟨.block k.textAt, by unfold textPtrs; rw [List.getElem?_map, hk]; rfl, nameTextAt_eq (h.text k (List.mem_of_getElem? hk))⟩

/-- **C108.**  No allocation fails.  A file is opened, analysed and closed, whatever its text and whatever else is in memory: nothing goes wrong; after the analysis exactly the blocks are in
use that the file needs; the memory holds the name of the file, the lengths of the series, the names of the columns, and for each column the distinct values that are not missing; after
closing the memory is as it was before. -/
theorem C108_memory (m : FileMemory) (hm : ∀ b, m.next ≤ b → m.blocks b = none) (hf : ∀ k, m.fails k = false) (name : List Char) (header : Bool) (sep : Char) (lines : List (List Char)) :
    ∃ p m1 r m2 m3 states, m.openData name false header true = ok (p, m1) ∧ m1.analyseData p sep lines = ok (some r, m2) ∧ FileUntouched m m2 ∧
      m2.inUse = m.inUse + fileBlocks header sep lines ∧
      HoldsFile m2 p name ((series header sep lines).map List.length) (if header then columnNames sep lines else []) states ∧
      (∀ j names, states[j]? = some names → names.Nodup ∧ ∀ v, v ∈ names ↔ missing v = false ∧ Occurs header sep lines j v) ∧
      m2.closeData p = ok m3 ∧ m3.blocks = m.blocks := by
  have hw := Store.within_used hm
  rcases openData_spec hw name false header true with ⟨m1, _, _, _, h1⟩ | ⟨m1, f, s, a1, w1, k1, b1, _, c1, n1⟩
  · obtain ⟨k, hk⟩ := h1 rfl
    rw [hf k] at hk; cases hk
  obtain ⟨m2, F, t, a2, k2, rfl, rfl, rfl, rfl, hrows, inv, hcase⟩ := analyseData_spec sep lines w1 b1 c1 (by intro k; rw [k1.fails]; exact hf k)
  have hdat : t.datarows = (series F.header sep lines).map List.length := by rw [inv.datarows, Nat.sub_self]; simp
  have hun : unseen F.header sep lines = (F.header && lines.all (blankLine sep)) := rfl
  have hcols : hdr F.header sep lines = if F.header then columnNames sep lines else [] := by
    cases F.header with
    | true => exact hdr_true sep lines
    | false => rfl
  rcases hcase with h | ⟨D, T, h, hsym, hnames⟩
  · obtain ⟨m3, a3, w3, k3⟩ := h.close
    have hc0 : (if F.header then columnNames sep lines else []) = [] := by rw [← hcols, ← inv.symbols, h.symbols]
    refine ⟨.block F.f, m1, t.ts, m2, m3, [], a1, a2, file_untouched hw (k1.trans k2), ?_, ?_, by simp, a3, ((k1.trans k2).trans k3).same.all hw w3⟩
    · rw [h.within.count, hw.count]
      have h0 : (F.header && !lines.all (blankLine sep)) = false := by
        have := inv.names
        rw [h.names, hun] at this
        by_contra hne
        rw [if_pos (by revert hne; cases F.header <;> simp)] at this
        cases this
      unfold fileBlocks
      rw [h0]
      simp only [Multiset.card_add, Multiset.card_singleton, Bool.false_eq_true, if_false]
      omega
    · rw [hc0]
      exact ⟨_, fileCellAt_eq h.file, nameTextAt_eq h.text, by rw [List.length_map]; exact hrows, by rw [← hdat]; exact fileIntsAt_eq h.rows, rfl, Or.inl ⟨rfl, rfl⟩, rfl, by simp, by simp⟩
  · obtain ⟨m3, a3, w3, k3⟩ := h.close
    have hname := inv.names
    rw [hnames] at hname
    have hcond : (F.header && !unseen F.header sep lines) = true := by
      by_contra hne
      rw [if_neg hne] at hname
      cases hname
    rw [if_pos hcond, Option.some.injEq] at hname
    have hH : F.header = true := (Bool.and_eq_true _ _ ▸ hcond).1
    have hsyms : D.syms.map Prod.snd = if F.header then columnNames sep lines else [] := by rw [← hsym, inv.symbols, hcols]
    have hlen : D.syms.length = (columnNames sep lines).length := by
      have := congrArg List.length hsyms
      rw [hH, if_pos rfl, List.length_map] at this
      exact this
    refine ⟨.block F.f, m1, t.ts, m2, m3, T.map SCol.names, a1, a2, file_untouched hw (k1.trans k2), ?_, ?_, ?_, a3, ((k1.trans k2).trans k3).same.all hw w3⟩
    · rw [h.card, ← hw.count]
      unfold fileBlocks
      have h1 : (F.header && !lines.all (blankLine sep)) = true := by
        rw [hun] at hcond
        revert hcond
        rw [hH]
        simp
      rw [h1, if_pos rfl, hlen]
      have h2 : (T.map (fun c => if c.names.length = 0 then 0 else 1 + c.names.length)).sum = ((List.range (columnNames sep lines).length).map (columnBlocks sep lines)).sum := by
        have e1 : T.map (fun c => if c.names.length = 0 then 0 else 1 + c.names.length) = (T.map SCol.names).map (fun l => if l.length = 0 then 0 else 1 + l.length) := by
          rw [List.map_map]; rfl
        rw [e1, hname, List.map_map, hcols, hH, if_pos rfl]
        congr 1
        apply List.map_congr_left
        intro j _
        exact (columnBlocks_eq sep lines j).symm
      rw [h2]
    · refine ⟨_, fileCellAt_eq h.file, nameTextAt_eq h.text, by rw [List.length_map]; exact hrows, by rw [← hdat]; exact fileIntsAt_eq h.rows, ?_, ?_, ?_, fun _ => ?_, fun j names hj => ?_⟩
      · rw [← hsyms, List.length_map]; rfl
      · rw [← hsyms]
        refine Or.inr ⟨?_, _, filePtrsAt_eq h.syms, by simp [symPtrs], fun i w hi => ?_⟩
        · rw [hsyms, hH, if_pos rfl]
          unfold columnNames
          have h1 : lines.all (blankLine sep) = false := by
            rw [hun, hH] at hcond
            revert hcond
            cases lines.all (blankLine sep) <;> simp
          have h2 : ∀ ls : List (List Char), ls.all (blankLine sep) = false → (match ls.dropWhile (blankLine sep) with
              | h :: _ => fields sep h
              | [] => []) ≠ [] := by
            intro ls
            induction ls with
            | nil => intro h; cases h
            | cons x ls ih =>
              intro hx
              by_cases hb : blankLine sep x = true
              · rw [List.dropWhile_cons_of_pos hb]
                exact ih (by simpa [hb] using hx)
              · rw [List.dropWhile_cons_of_neg hb]
                exact fun h0 => hb ((blank_fields sep x).2 h0)
          exact h2 lines h1
        · rw [List.getElem?_map] at hi
          obtain ⟨k, hk, rfl⟩ := Option.map_eq_some_iff.1 hi
          exact ⟨.block k.1, by unfold symPtrs; rw [List.getElem?_map, hk]; rfl, nameTextAt_eq (h.symText k (List.mem_of_getElem? hk))⟩
      · rw [← hsyms, List.length_map, List.length_map, h.length]
      · rw [List.map_map]
        refine (fileIntsAt_eq h.counts).trans ?_
        congr 1
        apply List.map_congr_left
        intro c _
        simp [SCol.names]
      · rw [List.getElem?_map] at hj
        obtain ⟨c, hc, rfl⟩ := Option.map_eq_some_iff.1 hj
        refine ⟨c.ptr, ?_, holds_states (h.good c (List.mem_of_getElem? hc))⟩
        change m2.filePtrAt (.block D.x) j = _
        unfold Store.filePtrAt
        rw [filePtrsAt_eq h.states, ok_bind, rd_eq_ok, List.getElem?_map, hc]
        rfl
    · intro j names hj
      rw [hname, List.getElem?_map] at hj
      obtain ⟨k, hk, rfl⟩ := Option.map_eq_some_iff.1 hj
      rw [List.getElem?_eq_some_iff] at hk
      obtain ⟨_, hk⟩ := hk
      rw [List.getElem_range] at hk
      subst hk
      exact colNames_spec F.header sep lines j

/-- the blocks needed by the file of C44 -/
theorem demo_blocks : fileBlocks true ',' (fileLines demoFile) = 14 := by decide +kernel

example : ∃ p m1 r m2, (Store.empty ample : FileMemory).openData "f".toList false true true = ok (p, m1) ∧ m1.analyseData p ',' (fileLines demoFile) = ok (some r, m2) ∧ m2.inUse = 14 := by
  obtain ⟨p, m1, r, m2, _, _, h1, h2, _, h3, _⟩ := C108_memory (Store.empty ample) (fun _ _ => rfl) (fun _ => rfl) "f".toList true ',' (fileLines demoFile)
  exact ⟨p, m1, r, m2, h1, h2, by rw [h3, demo_blocks]; rfl⟩

/-- **C108.**  Opening, for reading or writing, whichever allocations fail and whether or not the file exists: NULL and no memory is used, or a file that needs two blocks, and closing it
gives them back. -/
theorem C108_open (m : FileMemory) (hm : ∀ b, m.next ≤ b → m.blocks b = none) (name : List Char) (write header opens : Bool) :
    ∃ p m', m.openData name write header opens = ok (p, m') ∧
      ((p = .null ∧ m'.blocks = m.blocks ∧ (opens = false ∨ ∃ k, m.fails k = true)) ∨
        (opens = true ∧ (∃ c, m'.fileCellAt p = ok c ∧ m'.nameTextAt c.name = ok name ∧ c.write = write ∧ c.header = header) ∧ FileUntouched m m' ∧ m'.inUse = m.inUse + 2 ∧
          ∃ m'', m'.closeData p = ok m'' ∧ m''.blocks = m.blocks)) := by
  have hw := Store.within_used hm
  rcases openData_spec hw name write header opens with ⟨m1, a1, w1, k1, h1⟩ | ⟨m1, f, s, a1, w1, k1, b1, ho, c1, n1⟩
  · refine ⟨_, m1, a1, Or.inl ⟨rfl, k1.same.all hw w1, ?_⟩⟩
    cases opens with
    | false => exact Or.inl rfl
    | true => exact Or.inr (h1 rfl)
  · obtain ⟨m2, a2, w2, k2⟩ := closeData_spec (S := 0) (T := []) (M := ((List.range m.next).filter (fun b => (m.blocks b).isSome) : Multiset Nat))
      (w1.as (by simp [blocks_block, scolsBlocks, MemPtr.blocks])) c1 (by simp) (by simp) (by simp) (Or.inl ⟨rfl, rfl⟩) (Or.inl ⟨rfl, rfl⟩)
    refine ⟨_, m1, a1, Or.inr ⟨ho, ⟨_, fileCellAt_eq c1, nameTextAt_eq b1, rfl, rfl⟩, file_untouched hw k1, ?_, m2, a2, (k1.trans k2).same.all hw w2⟩⟩
    rw [w1.count, hw.count]
    simp only [Multiset.card_add, Multiset.card_singleton]
    omega

/-- **C108.**  A file with a header is open, and one of the first allocations of the analysis fails: of the line counts (number 0), of the fields of the first line, of the array for the
names of the columns, of such a name, or of the array of lists.  Then an error is reported and closing gives everything back. -/
theorem C108_early (m : FileMemory) (hm : ∀ b, m.next ≤ b → m.blocks b = none) (name : List Char) (sep : Char) (lines : List (List Char)) (p : MemPtr) (m1 : FileMemory)
    (ho : m.openData name false true true = ok (p, m1)) (hp : p ≠ .null) (j : Nat) (hj : m1.fails (m1.next + j) = true)
    (hlt : j = 0 ∨ (j < (columnNames sep lines).length + 4 ∧ columnNames sep lines ≠ [])) :
    ∃ m2 m3, m1.analyseData p sep lines = ok (none, m2) ∧ FileUntouched m m2 ∧ m2.closeData p = ok m3 ∧ m3.blocks = m.blocks := by
  have hw := Store.within_used hm
  rcases openData_spec hw name false true true with ⟨m1', a1, _⟩ | ⟨m1', f, s, a1, w1, k1, b1, _, c1, n1⟩
  · rw [ho] at a1
    cases a1
    exact absurd rfl hp
  · rw [ho] at a1
    cases a1
    obtain ⟨m2, N, a2, _, k2, m3, a3, w3, k3⟩ := analyse_early sep lines w1 c1 ⟨j, hj, hlt⟩
    exact ⟨m2, m3, a2, file_untouched hw (k1.trans k2), a3, (k1.trans k3).same.all hw w3⟩

example : ∀ j < 6, ∃ p m1 m2 m3, (Store.empty (fun k => k == 2 + j) : FileMemory).openData "f".toList false true true = ok (p, m1) ∧ m1.analyseData p ',' (fileLines demoFile) = ok (none, m2) ∧
    m2.closeData p = ok m3 ∧ m3.blocks = fun _ => none := by
  intro j hj
  have hcn : columnNames ',' (fileLines demoFile) = ["A".toList, "B".toList] := by decide +kernel
  obtain ⟨m1, h0, hn, hf⟩ : ∃ m1, (Store.empty (fun k => k == 2 + j) : FileMemory).openData "f".toList false true true = ok (.block 0, m1) ∧ m1.next = 2 ∧ m1.fails = fun k => k == 2 + j := by
    interval_cases j <;> exact ⟨_, rfl, rfl, rfl⟩
  obtain ⟨m2, m3, h1, _, h2, h3⟩ := C108_early _ (fun _ _ => rfl) _ ',' (fileLines demoFile) _ _ h0 (by simp) j (by rw [hn, hf]; simp) (Or.inr ⟨by rw [hcn]; exact hj, by rw [hcn]; simp⟩)
  exact ⟨_, _, m2, m3, h0, h1, h2, h3⟩

/-- **C108.**  `read_timeseries` does not close the file after these errors: it reports nothing but the error, and at least two blocks are lost. -/
theorem C108_series_lost (m : FileMemory) (hm : ∀ b, m.next ≤ b → m.blocks b = none) (name : List Char) (sep : Char) (lines : List (List Char)) (j : Nat)
    (h0 : m.fails m.next = false) (h1 : m.fails (m.next + 1) = false) (hj : m.fails (m.next + 2 + j) = true)
    (hlt : j = 0 ∨ (j < (columnNames sep lines).length + 4 ∧ columnNames sep lines ≠ [])) :
    ∃ m', m.openSeries name true sep lines = ok (none, m') ∧ FileUntouched m m' ∧ m.inUse + 2 ≤ m'.inUse := by
  have hw := Store.within_used hm
  rcases openData_spec hw name false true true with ⟨m1, a1, _⟩ | ⟨m1, f, s, a1, w1, k1, b1, _, c1, n1⟩
  · exfalso
    unfold Store.openData at a1
    obtain ⟨m2, e2, w2, _, k2, n2⟩ := hw.given h0 (.file { write := false, header := true, name := .null, ndatarows := 0, datarows := .null, nodes := 0, symbols := .null, counts := .null, states := .null })
    simp only [e2] at a1
    obtain ⟨m3, e3, w3, _, _, _⟩ := w2.given (by rw [k2.fails, n2]; exact h1) (.text name)
    rw [if_neg (by simp)] at a1
    simp only [Bool.not_true, Bool.false_eq_true, if_false, e3] at a1
    rw [if_neg (by simp)] at a1
    obtain ⟨m4, _, e4⟩ := bind_ok a1
    cases e4
  · obtain ⟨m2, N, a2, w2, k2, _⟩ := analyse_early sep lines w1 c1 ⟨j, by rw [k1.fails, n1]; exact hj, hlt⟩
    refine ⟨m2, ?_, file_untouched hw (k1.trans k2), ?_⟩
    · unfold Store.openSeries
      rw [a1, ok_bind]
      simp only
      rw [if_neg (by simp), a2]
      rfl
    · rw [w2.count, hw.count]
      simp only [Multiset.card_add, Multiset.card_singleton]
      omega

/-- The file of C44 is opened and analysed: the result of the analysis and the number of blocks in use. -/
def analysedDemo (fails : Nat → Bool) : Res (Option Nat × Nat) := do
  let (f, m) ← (Store.empty fails : FileMemory).openData "f".toList false true true
  let (r, m) ← m.analyseData f ',' (fileLines demoFile)
  ok (r, m.inUse)

/-- It is closed, too: the number of blocks in use afterwards. -/
def closedDemo (fails : Nat → Bool) : Res Nat := do
  let (f, m) ← (Store.empty fails : FileMemory).openData "f".toList false true true
  let (_, m) ← m.analyseData f ',' (fileLines demoFile)
  let m ← m.closeData f
  ok m.inUse

example : analysedDemo ample = ok (some 1, 14) ∧ closedDemo ample = ok 0 := by decide +kernel

/-- **C108.**  Reading series, whichever allocations fail: if the program gets as far as a result, nothing that was in memory has changed.  If the file cannot be opened or there is no memory
for it, an error is reported and no memory is used.  Otherwise the file and its name are in use after every failure too, so that each error of the analysis loses them. -/
theorem C108_any_failure (m : FileMemory) (hm : ∀ b, m.next ≤ b → m.blocks b = none) (name : List Char) (opens : Bool) (sep : Char) (lines : List (List Char)) (r : Option MemPtr)
    (m' : FileMemory) (h : m.openSeries name opens sep lines = ok (r, m')) :
    FileUntouched m m' ∧
      (if opens = true ∧ m.fails m.next = false ∧ m.fails (m.next + 1) = false then m.inUse + 2 ≤ m'.inUse else r = none ∧ m'.blocks = m.blocks) := by
  have hw := Store.within_used hm
  unfold Store.openSeries at h
  obtain ⟨⟨p, m1⟩, a1, h2⟩ := bind_ok h
  unfold Store.openData Store.alloc at a1
  by_cases h0 : m.fails m.next = true
  · simp only [h0, if_true, beq_self_eq_true] at a1
    cases a1
    cases h2
    exact ⟨fun b x hx => hx, by rw [if_neg (by simp [h0])]; exact ⟨rfl, rfl⟩⟩
  have hback : ∀ x : FileBlock, Function.update (Function.update m.blocks m.next (some x)) m.next none = m.blocks := fun x => by
    rw [Function.update_idem, ← hm m.next le_rfl, Function.update_eq_self]
  cases opens with
  | false =>
    simp only [h0, Bool.false_eq_true, if_false, beq_iff_eq, reduceCtorEq, Bool.not_false, if_true, Store.free, Function.update_self, ok_bind, hback] at a1
    cases a1
    cases h2
    exact ⟨fun b x hx => hx, by rw [if_neg (by simp)]; exact ⟨rfl, rfl⟩⟩
  | true =>
    by_cases h1 : m.fails (m.next + 1) = true
    · simp only [h0, h1, Bool.false_eq_true, if_false, beq_iff_eq, reduceCtorEq, Bool.not_true, if_true, Store.free, Function.update_self, ok_bind, hback] at a1
      cases a1
      cases h2
      exact ⟨fun b x hx => hx, by rw [if_neg (by simp [h1])]; exact ⟨rfl, rfl⟩⟩
    · rw [if_pos ⟨rfl, by simpa using h0, by simpa using h1⟩]
      have hne : Function.update (Function.update m.blocks m.next (some (FileBlock.file
          { write := false, header := true, name := .null, ndatarows := 0, datarows := .null, nodes := 0, symbols := .null, counts := .null, states := .null }))) (m.next + 1)
          (some (FileBlock.text name)) m.next = some (FileBlock.file
          { write := false, header := true, name := .null, ndatarows := 0, datarows := .null, nodes := 0, symbols := .null, counts := .null, states := .null }) := by
        rw [Function.update_of_ne (by omega), Function.update_self]
      simp only [h0, h1, Bool.false_eq_true, if_false, beq_iff_eq, reduceCtorEq, Bool.not_true, Store.put, hne, ok_bind] at a1
      obtain ⟨rfl, hm1⟩ := Prod.mk.inj (Res.ok.inj a1)
      have hs : Safe m.next m m1 := by
        rw [← hm1]
        refine ⟨fun b hb => ?_, le_rfl, ⟨_, Function.update_self ..⟩, ⟨name, ?_⟩, fun b x hb hx => ?_⟩
        rotate_left 2
        · simp only at hx
          by_cases e1 : b = m.next
          · rw [e1, Function.update_self] at hx
            cases hx
            exact ⟨far_null, far_null, far_null, far_null⟩
          · rw [Function.update_of_ne e1] at hx
            by_cases e2 : b = m.next + 1
            · rw [e2, Function.update_self] at hx
              cases hx
              trivial
            · rw [Function.update_of_ne e2, Function.update_of_ne e1, hm b hb] at hx
              cases hx
        · simp only
          rw [Function.update_of_ne (by omega), Function.update_of_ne (by omega), Function.update_of_ne (by omega)]
        · simp only
          rw [Function.update_of_ne (by omega), Function.update_self]
      simp only [beq_iff_eq, reduceCtorEq, if_false] at h2
      obtain ⟨⟨r2, m2⟩, a2, h3⟩ := bind_ok h2
      have hs2 := hs.analyse sep lines _ a2
      have hm2 : m2 = m' := by
        cases r2 <;> cases h3 <;> rfl
      subst hm2
      refine ⟨fun b x hx => ?_, hs2.count⟩
      by_cases hb : b < m.next
      · rw [hs2.old b hb, hx]
      · rw [hm b (by omega)] at hx
        cases hx

/-- for instance, no memory for the first entry of a list -/
example : ∃ r m', (Store.empty (fun k => k == 14) : FileMemory).openSeries "f".toList true ',' (fileLines demoFile) = ok (r, m') ∧ 2 ≤ m'.inUse := by
  have h : (match (Store.empty (fun k => k == 14) : FileMemory).openSeries "f".toList true ',' (fileLines demoFile) with | .ok _ => true | .ub => false) = true := by decide +kernel
  cases e : (Store.empty (fun k => k == 14) : FileMemory).openSeries "f".toList true ',' (fileLines demoFile) with
  | ub => rw [e] at h; cases h
  | ok x =>
    have := (C108_any_failure _ (fun _ _ => rfl) _ _ _ _ x.1 x.2 e).2
    rw [if_pos ⟨rfl, rfl, rfl⟩] at this
    exact ⟨x.1, x.2, rfl, le_trans (by omega) this⟩

/-- **C108.**  Other failures are not handled.  A list that could not be created is read through NULL. -/
theorem C108_list_undefined : ∀ k ∈ [8, 9], analysedDemo (fun j => j == k) = ub := by decide +kernel

/-- **C108.**  An array of state names that could not be created is not noticed, and closing reads through NULL. -/
theorem C108_array_undefined : ∀ k ∈ [25, 26], analysedDemo (fun j => j == k) = ok (some 1, 13) ∧ closedDemo (fun j => j == k) = ub := by decide +kernel

/-- **C108.**  When there is no memory for the fields of a line of data, the analysis reports an error and loses all lists; closing does not give them back. -/
theorem C108_line_lost : closedDemo (fun j => j == 12) = ok 3 ∧ closedDemo (fun j => j == 17) = ok 7 ∧ closedDemo (fun j => j == 21) = ok 9 := by decide +kernel

/-- **C108.**  When there is no memory for an entry of a list, the name of a state is missing although no error is reported. -/
theorem C108_state_lost : ∀ k ∈ [14, 16, 20, 23], analysedDemo (fun j => j == k) = ok (some 1, 13) := by decide +kernel

end Nip.Props
