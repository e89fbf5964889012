import Verif.DataMemoryRun

/-! # Lemmas about the memory of data files: the lines of a file -/

namespace Nip

open Res Spec Store

/-- a file that is open for reading: the addresses of the file, its name and the line counts -/
structure DBase where
  f : Nat
  s : Nat
  d : Nat
  rows : Nat
  header : Bool
  name : List Char

/-- the columns: the addresses of the array of names, of the counts and of the states, of the array of lists, and the names and lists -/
structure DCols where
  a : Nat
  k : Nat
  x : Nat
  p : Nat
  syms : List (Nat × List Char)
  cols : List NCol

/-- the file before its columns are known -/
def DBase.cell (F : DBase) : FileCell :=
  { write := false, header := F.header, name := .block F.s, ndatarows := F.rows, datarows := .block F.d, nodes := 0, symbols := .null, counts := .null, states := .null }

/-- the file with its columns -/
def DBase.cellWith (F : DBase) (D : DCols) : FileCell := { F.cell with nodes := D.syms.length, symbols := .block D.a, counts := .block D.k, states := .block D.x }

/-- the blocks of the columns without the lists -/
def DCols.fixed (D : DCols) : Multiset Nat := {D.a} + (ptrBlocks (symPtrs D.syms) + ({D.k} + {D.x}))

/-- no columns yet -/
structure DBase.Empty (F : DBase) (t : Analysis) (m : FileMemory) (M : Multiset Nat) : Prop where
  within : m.Within ({F.f} + ({F.s} + ({F.d} + M)))
  text : m.blocks F.s = some (.text F.name)
  rows : m.blocks F.d = some (.ints t.datarows)
  fails : ∀ k, m.fails k = false
  file : m.blocks F.f = some (.file F.cell)
  state : t.state ≤ 2
  symbols : t.symbols = []
  names : t.names = none

/-- the columns are known -/
structure DBase.Full (F : DBase) (D : DCols) (t : Analysis) (m : FileMemory) (M : Multiset Nat) : Prop where
  within : m.Within ({D.p} + (colsBlocks D.cols + ({F.f} + ({F.s} + ({F.d} + (D.fixed + M))))))
  text : m.blocks F.s = some (.text F.name)
  rows : m.blocks F.d = some (.ints t.datarows)
  fails : ∀ k, m.fails k = false
  file : m.blocks F.f = some (.file (F.cellWith D))
  state : t.state ≤ 1
  symbols : t.symbols = D.syms.map Prod.snd
  names : t.names = some (D.cols.map NCol.names)
  length : D.cols.length = D.syms.length
  syms : m.blocks D.a = some (.pointers (symPtrs D.syms))
  symText : ∀ s ∈ D.syms, m.blocks s.1 = some (.text s.2)
  counts : m.blocks D.k = some (.ints (List.replicate D.syms.length 0))
  states : m.blocks D.x = some (.pointers (List.replicate D.syms.length .null))
  lists : m.blocks D.p = some (.pointers (colPtrs D.cols))
  good : ∀ c ∈ D.cols, c.Good m

/-- the file during the analysis -/
def DBase.Run (F : DBase) (t : Analysis) (p : MemPtr) (m : FileMemory) (M : Multiset Nat) : Prop := (F.Empty t m M ∧ p = .null) ∨ ∃ D, F.Full D t m M ∧ p = .block D.p

/-- the local variables -/
def fileRun (t : Analysis) (p : MemPtr) : FileRun := { state := t.state, ts := t.ts, empty := t.empty, names := p }

/-- The names of the columns, whether or not there is memory. -/
theorem setSymbols_spec {m : FileMemory} {M : Multiset Nat} {b f : Nat} {c : FileCell} {line : List Char} {bounds : List Nat} (words : List (List Char)) (h : m.Within ({b} + ({f} + M)))
    (hc : m.blocks f = some (.file c)) (hh : c.header = true) (hb : m.blocks b = some (.ints bounds)) (hw : ∀ j (hj : j < words.length), copyToken line bounds j = ok words[j]) :
    (∃ m' q S, m.setSymbols (.block f) line (.block b) words.length = ok (false, m') ∧ m'.Within ({b} + ({f} + (S + M))) ∧ m.Keeps m' ({b} + M) ∧
      m'.blocks f = some (.file { c with nodes := words.length, symbols := q }) ∧
      ((q = .null ∧ S = 0) ∨ ∃ a l, q = .block a ∧ m'.blocks a = some (.pointers l) ∧ l.length = words.length ∧ (∀ r ∈ l, r ≠ .junk) ∧ S = {a} + ptrBlocks l) ∧ ∃ k, m.fails k = true) ∨
    (∃ m' a syms, m.setSymbols (.block f) line (.block b) words.length = ok (true, m') ∧ m'.Within ({b} + ({f} + (({a} + ptrBlocks (symPtrs syms)) + M))) ∧ m.Keeps m' ({b} + M) ∧
      m'.blocks f = some (.file { c with nodes := words.length, symbols := .block a }) ∧ m'.blocks a = some (.pointers (symPtrs syms)) ∧ syms.map Prod.snd = words ∧
      (∀ s ∈ syms, m'.blocks s.1 = some (.text s.2)) ∧ m'.next = m.next + 1 + words.length ∧ ∀ j < 1 + words.length, m.fails (m.next + j) = false) := by
  unfold setSymbols
  rw [fileCellAt_eq hc, ok_bind]
  rcases h.any (.pointers (List.replicate words.length .null)) with ⟨m1, a1, f1, w1, k1, n1⟩ | ⟨m1, a1, f1, w1, b1, k1, n1⟩
  · obtain ⟨m2, a2, w2, b2, k2, n2⟩ := Within.write (a := f) (M := {b} + M) (m := m1) (w1.as (by abel)) (.file { c with nodes := words.length, symbols := .null })
    refine Or.inl ⟨m2, .null, 0, ?_, w2.as (by rw [zero_add]; abel), (k1.mono ?_).trans k2, b2, Or.inl ⟨rfl, rfl⟩, _, f1⟩
    · simp only [a1, a2, ok_bind, beq_self_eq_true, if_true]
    · rw [Multiset.le_iff_exists_add]; exact ⟨{f}, by abel⟩
  · obtain ⟨m2, a2, w2, b2, k2, n2⟩ := Within.write (a := f) (M := {m.next} + ({b} + M)) (m := m1) (w1.as (by abel)) (.file { c with nodes := words.length, symbols := .block m.next })
    have k12 : m.Keeps m2 ({b} + M) := by
      refine (k1.mono ?_).then k2 (Multiset.le_add_left _ _)
      rw [Multiset.le_iff_exists_add]; exact ⟨{f}, by abel⟩
    have e0 : ∀ X, newSymbols true line (.block b) (.block m.next) words.length 0 m2 = X → (do
        let (a, m) := m.alloc (.pointers (List.replicate words.length .null))
        let m ← m.put (.block f) (.file { c with nodes := words.length, symbols := a })
        if a == .null then ok (false, m)
        else newSymbols c.header line (.block b) a words.length 0 m) = X := by
      rintro X rfl
      simp only [a1, a2, ok_bind]
      rw [if_neg (by simp), hh]
    rcases newSymbols_spec (a := m.next) (b := b) (line := line) (bounds := bounds) words [] (m := m2) (M := {f} + M)
        (w2.as (by simp only [symPtrs, List.map_nil, ptrBlocks_nil]; abel)) (by rw [k2.same _ (by simp), b1]; rfl) (by rw [k12.same b (by simp), hb]) (by simp)
        (by intro j hj; rw [List.length_nil, Nat.zero_add]; exact hw j hj) with ⟨m3, l', a3, w3, k3, b3, c3, f3⟩ | ⟨m3, l', a3, w3, k3, b3, c3, g3, n3, f3⟩
    · refine Or.inl ⟨m3, .block m.next, {m.next} + ptrBlocks (symPtrs l'), e0 _ a3, w3.as (by abel), k12.trans (k3.mono ?_), by rw [k3.same f (by simp), b2],
        Or.inr ⟨_, _, rfl, b3, ?_, ?_, ?_⟩, ?_⟩
      · rw [Multiset.le_iff_exists_add]; exact ⟨{f}, by abel⟩
      · rw [List.length_nil, Nat.zero_add] at c3 ⊢
        simp only [List.length_append, List.length_replicate, symPtrs, List.length_map]
        omega
      · intro r hr
        rcases List.mem_append.1 hr with hr | hr
        · unfold symPtrs at hr
          obtain ⟨k, _, rfl⟩ := List.mem_map.1 hr
          simp
        · rw [List.eq_of_mem_replicate hr]; simp
      · rw [ptrBlocks_append]
        have : ∀ n, ptrBlocks (List.replicate n .null) = 0 := by
          intro n
          induction n with
          | zero => rfl
          | succ n ih => rw [List.replicate_succ, ptrBlocks_cons, ih]; rfl
        rw [this, add_zero]
      · rw [← k12.fails]; exact f3
    · refine Or.inr ⟨m3, m.next, l', e0 _ a3, w3.as (by abel), k12.trans (k3.mono ?_), by rw [k3.same f (by simp), b2], b3, by simpa using c3, g3, by omega, fun j hj => ?_⟩
      · rw [Multiset.le_iff_exists_add]; exact ⟨{f}, by abel⟩
      · rcases j with _ | j
        · exact f1
        · have := f3 j (by omega)
          rw [k12.fails, n2, n1] at this
          rw [← this]
          congr 1
          omega

/-- The first line that is not empty. -/
theorem headerLine_spec {F : DBase} {t : Analysis} {m : FileMemory} {M : Multiset Nat} {b : Nat} {line : List Char} {bounds : List Nat} {words : List (List Char)}
    (h : F.Empty t m ({b} + M)) (hh : F.header = true) (hb : m.blocks b = some (.ints bounds)) (hw : ∀ j (hj : j < words.length), copyToken line bounds j = ok words[j])
    {t' : Analysis} (h1 : t'.datarows = t.datarows) (h2 : t'.state ≤ 1) (h3 : t'.symbols = words) (h4 : t'.names = some (List.replicate words.length [])) :
    ∃ m' D, m.headerLine (.block F.f) line (.block b) words.length = ok (some (.block D.p), m') ∧ F.Full D t' m' M ∧ m.Keeps m' M := by
  rcases setSymbols_spec (c := F.cell) (f := F.f) (M := {F.s} + ({F.d} + M)) words (h.within.as (by abel)) h.file hh hb hw with
    ⟨m1, _, _, _, _, _, _, _, k, hk⟩ | ⟨m1, a, syms, a1, w1, k1, f1, b1, s1, g1, _, _⟩
  · rw [h.fails k] at hk; cases hk
  have hn : words.length = syms.length := by rw [← s1, List.length_map]
  have hf1 : ∀ k, m1.fails k = false := by intro k; rw [k1.fails]; exact h.fails k
  generalize hS : ({b} + ({F.f} + (({a} + ptrBlocks (symPtrs syms)) + ({F.s} + ({F.d} + M)))) : Multiset Nat) = S at w1
  obtain ⟨m2, a2, w2, b2, k2, n2⟩ := w1.given (hf1 _) (.pointers (List.replicate words.length .null))
  obtain ⟨m3, C, a3, w3, b3, c3, g3, k3⟩ := newLists_spec (n := words.length) w2 b2 (by intro k; rw [k2.fails]; exact hf1 k)
  have hf3 : ∀ k, m3.fails k = false := by intro k; rw [k3.fails, k2.fails]; exact hf1 k
  obtain ⟨m4, a4, w4, b4, k4, n4⟩ := w3.given (hf3 _) (.ints (List.replicate words.length 0))
  have fM : S = {F.f} + ({b} + (({a} + ptrBlocks (symPtrs syms)) + ({F.s} + ({F.d} + M)))) := by rw [← hS]; abel
  obtain ⟨m5, a5, w5, b5, k5, n5⟩ := Within.write (a := F.f) (M := {m3.next} + ({m1.next} + (colsBlocks C + ({b} + (({a} + ptrBlocks (symPtrs syms)) + ({F.s} + ({F.d} + M))))))) (m := m4)
    (w4.as (by rw [fM]; abel)) (.file { F.cell with nodes := words.length, symbols := .block a, counts := .block m3.next })
  have hf5 : ∀ k, m5.fails k = false := by intro k; rw [k5.fails, k4.fails]; exact hf3 k
  obtain ⟨m6, a6, w6, b6, k6, n6⟩ := w5.given (hf5 _) (.pointers (List.replicate words.length .null))
  obtain ⟨m7, a7, w7, b7, k7, n7⟩ := Within.write (a := F.f)
    (M := {m5.next} + ({m3.next} + ({m1.next} + (colsBlocks C + ({b} + (({a} + ptrBlocks (symPtrs syms)) + ({F.s} + ({F.d} + M)))))))) (m := m6)
    (w6.as (by abel)) (.file { F.cell with nodes := words.length, symbols := .block a, counts := .block m3.next, states := .block m5.next })
  obtain ⟨m8, a8, w8, k8, n8⟩ := Within.release (q := .block b) (by simp) (m := m7)
    (M := {F.f} + ({m5.next} + ({m3.next} + ({m1.next} + (colsBlocks C + (({a} + ptrBlocks (symPtrs syms)) + ({F.s} + ({F.d} + M)))))))) (w7.as (by rw [blocks_block]; abel))
  -- what is kept
  let R : Multiset Nat := {a} + (ptrBlocks (symPtrs syms) + ({F.s} + ({F.d} + M)))
  have k23 : m1.Keeps m3 R := by
    refine ((k2.mono ?_).trans (k3.mono ?_)) <;>
    · rw [fM, Multiset.le_iff_exists_add]; exact ⟨{F.f} + {b}, by simp only [R]; abel⟩
  have k45 : m3.Keeps m5 ({m1.next} + (colsBlocks C + R)) := by
    refine ((k4.mono ?_).trans (k5.mono ?_))
    · rw [fM, Multiset.le_iff_exists_add]; exact ⟨{F.f} + {b}, by simp only [R]; abel⟩
    · rw [Multiset.le_iff_exists_add]; exact ⟨{m3.next} + {b}, by simp only [R]; abel⟩
  have k68 : m5.Keeps m8 ({m3.next} + ({m1.next} + (colsBlocks C + R))) := by
    refine (((k6.mono ?_).trans (k7.mono ?_))).trans (k8.mono ?_)
    · rw [Multiset.le_iff_exists_add]; exact ⟨{F.f} + {b}, by simp only [R]; abel⟩
    · rw [Multiset.le_iff_exists_add]; exact ⟨{m5.next} + {b}, by simp only [R]; abel⟩
    · rw [Multiset.le_iff_exists_add]; exact ⟨{m5.next} + {F.f}, by simp only [R]; abel⟩
  have k38 : m3.Keeps m8 ({m1.next} + (colsBlocks C + R)) := k45.trans (k68.mono (Multiset.le_add_left _ _))
  have k18 : m1.Keeps m8 R := k23.trans (k38.mono ((Multiset.le_add_left _ _).trans (Multiset.le_add_left _ _)))
  have kM : m.Keeps m1 ({F.s} + ({F.d} + M)) := k1.mono (Multiset.le_add_left _ _)
  have hR : ({F.s} + ({F.d} + M)) ≤ R := (Multiset.le_add_left _ _).trans (Multiset.le_add_left _ _)
  have k08 : m.Keeps m8 ({F.s} + ({F.d} + M)) := kM.trans (k18.mono hR)
  have b3' : m8.blocks m1.next = some (.pointers (colPtrs C)) := by rw [k38.same _ (by simp), b3]
  refine ⟨m8, ⟨a, m3.next, m5.next, m1.next, syms, C⟩, ?_, ⟨w8.as ?_, ?_, ?_, ?_, ?_, h2, ?_, ?_, ?_, ?_, ?_, ?_, ?_, b3', ?_⟩, k08.mono ((Multiset.le_add_left _ _).trans (Multiset.le_add_left _ _))⟩
  · have f1' : m1.blocks F.f = some (.file { F.cell with nodes := words.length, symbols := .block a }) := f1
    unfold headerLine
    rw [a1, ok_bind]
    simp only [Bool.not_true, Bool.false_eq_true, if_false]
    rw [fileCellAt_eq f1', ok_bind]
    simp only [a2]
    rw [if_neg (by simp), a3, ok_bind]
    simp only [a4, a5, ok_bind]
    rw [if_neg (by simp)]
    simp only [a6, a7, ok_bind]
    rw [if_neg (by simp), a8, ok_bind]
  · simp only [DCols.fixed]; abel
  · rw [k08.same _ (by simp), h.text]
  · rw [k08.same _ (by simp), h.rows, h1]
  · intro k; rw [k08.fails]; exact h.fails k
  · rw [k8.same _ (by simp), b7]
    simp only [DBase.cellWith, hn]
  · rw [h3, s1]
  · rw [h4]; exact congrArg some c3.symm
  · have := congrArg List.length c3
    simpa [hn] using this
  · rw [k18.same _ (by simp [R]), b1]
  · intro s hs
    have hm := mem_symPtrs hs
    rw [k18.same _ (by simp [R, hm])]
    exact g1 s hs
  · rw [k68.same _ (by simp), k5.same _ (by simp), b4, hn]
  · rw [k8.same _ (by simp), k7.same _ (by simp), b6, hn]
  · intro c hc
    refine (g3 c hc).keep (k38.mono ((colsBlocks_mem hc).trans ?_)).same
    rw [Multiset.le_iff_exists_add]; exact ⟨{m1.next} + R, by abel⟩

end Nip
