import Verif.DataMemoryLemmas

/-! # Lemmas about the memory of data files: closing, opening, and the names of columns -/

namespace Nip

open Res Spec Store

theorem blocks_block (a : Nat) : (MemPtr.block a).blocks = {a} := rfl

/-- the states of a column after the analysis: the array and the texts -/
structure SCol where
  ptr : MemPtr
  links : List NLink

/-- its blocks -/
def SCol.blocks (c : SCol) : Multiset Nat := c.ptr.blocks + ptrBlocks (textPtrs c.links)

/-- the blocks of several columns -/
def scolsBlocks (T : List SCol) : Multiset Nat := (T.map SCol.blocks).sum

theorem scolsBlocks_cons (c : SCol) (T : List SCol) : scolsBlocks (c :: T) = c.blocks + scolsBlocks T := by simp [scolsBlocks]

theorem scolsBlocks_append (T T' : List SCol) : scolsBlocks (T ++ T') = scolsBlocks T + scolsBlocks T' := by simp [scolsBlocks]

theorem scolsBlocks_mem {T : List SCol} {c : SCol} (h : c ∈ T) : c.blocks ≤ scolsBlocks T := by
  obtain ⟨l1, l2, rfl⟩ := List.append_of_mem h
  rw [scolsBlocks_append, scolsBlocks_cons]
  exact (Multiset.le_add_right _ _).trans (Multiset.le_add_left _ _)

/-- the states are in memory -/
structure SCol.Good (c : SCol) (m : FileMemory) : Prop where
  array : (c.ptr = .null ∧ c.links = []) ∨ (c.links ≠ [] ∧ ∃ a, c.ptr = .block a ∧ m.blocks a = some (.pointers (textPtrs c.links)))
  text : ∀ k ∈ c.links, m.blocks k.textAt = some (.text k.text)

theorem SCol.Good.keep {c : SCol} {m m' : FileMemory} (h : c.Good m) (hs : m.SameOn m' c.blocks) : c.Good m' := by
  refine ⟨?_, fun k hk => ?_⟩
  · rcases h.array with h | ⟨h1, a, h2, h3⟩
    · exact Or.inl h
    · exact Or.inr ⟨h1, a, h2, by rw [hs a (by simp [SCol.blocks, h2, MemPtr.blocks])]; exact h3⟩
  · rw [hs _ (Multiset.mem_add.2 (Or.inr (mem_textPtrs hk)))]; exact h.text k hk

theorem textPtrs_junk (ls : List NLink) : ∀ q ∈ textPtrs ls, q ≠ .junk := by
  intro q hq
  unfold textPtrs at hq
  obtain ⟨k, _, rfl⟩ := List.mem_map.1 hq
  simp

theorem freeStates_spec {m : FileMemory} {M : Multiset Nat} {x : SCol} {a k i : Nat} {P : List MemPtr} {N : List Nat} (h : m.Within (x.blocks + ({a} + ({k} + M)))) (hx : x.Good m)
    (ha : m.blocks a = some (.pointers P)) (hk : m.blocks k = some (.ints N)) (hP : P[i]? = some x.ptr) (hN : N[i]? = some x.links.length) :
    ∃ m', m.freeStates (.block a) (.block k) i = ok m' ∧ m'.Within ({a} + ({k} + M)) ∧ m.Keeps m' ({a} + ({k} + M)) ∧ m'.next = m.next := by
  have h1 : ∀ (y : Nat), m.freeStates (.block a) (.block k) i = (m.freeFilePtrs x.ptr x.links.length >>= fun m => m.free x.ptr) := by
    intro y
    unfold freeStates filePtrAt
    rw [fileIntsAt_eq hk, ok_bind, rd_eq_ok.2 hN, ok_bind, filePtrsAt_eq ha, ok_bind, rd_eq_ok.2 hP, ok_bind]
  rw [h1 0]
  rcases hx.array with ⟨e1, e2⟩ | ⟨e1, b, e2, e3⟩
  · rw [e1, e2]
    exact ⟨m, rfl, h.as (by simp [SCol.blocks, e1, e2, MemPtr.blocks, textPtrs, ptrBlocks_nil]), Keeps.refl _ _, rfl⟩
  · rw [e2]
    have hl : x.links.length = (textPtrs x.links).length := by simp [textPtrs]
    obtain ⟨m1, a1, w1, k1, n1⟩ := freeFilePtrs_spec (a := b) (M := {a} + ({k} + M)) (m := m) (l := textPtrs x.links) (h.as (by simp only [SCol.blocks, e2, blocks_block]; abel)) e3 (textPtrs_junk _)
    obtain ⟨m2, a2, w2, k2, n2⟩ := Within.release (q := .block b) (by simp) (m := m1) (M := {a} + ({k} + M)) w1
    refine ⟨m2, by rw [hl, a1, ok_bind, a2], w2, (k1.mono (Multiset.le_add_left _ _)).trans k2, by omega⟩

/-- Closing gives back all memory of a file, also of one that was analysed in part. -/
theorem closeData_spec {m : FileMemory} {M : Multiset Nat} {f : Nat} {c : FileCell} {S : Multiset Nat} {T : List SCol}
    (h : m.Within ({f} + (c.name.blocks + (S + (c.states.blocks + (scolsBlocks T + (c.counts.blocks + (c.datarows.blocks + M)))))))) (hc : m.blocks f = some (.file c))
    (j1 : c.name ≠ .junk) (j2 : c.counts ≠ .junk) (j3 : c.datarows ≠ .junk)
    (hS : (c.symbols = .null ∧ S = 0) ∨ ∃ a l, c.symbols = .block a ∧ m.blocks a = some (.pointers l) ∧ l.length = c.nodes ∧ (∀ q ∈ l, q ≠ .junk) ∧ S = {a} + ptrBlocks l)
    (hT : (c.states = .null ∧ T = []) ∨ ∃ a k, c.states = .block a ∧ c.counts = .block k ∧ m.blocks a = some (.pointers (T.map SCol.ptr)) ∧
      m.blocks k = some (.ints (T.map (fun x => x.links.length))) ∧ T.length = c.nodes ∧ ∀ x ∈ T, x.Good m) :
    ∃ m', m.closeData (.block f) = ok m' ∧ m'.Within M ∧ m.Keeps m' M := by
  obtain ⟨m1, a1, w1, k1, n1⟩ := Within.release j1 (m := m) (M := {f} + (S + (c.states.blocks + (scolsBlocks T + (c.counts.blocks + (c.datarows.blocks + M)))))) (h.as (by abel))
  have key2 : ∃ m2, m1.freeSymbols c = ok m2 ∧ m2.Within ({f} + (c.states.blocks + (scolsBlocks T + (c.counts.blocks + (c.datarows.blocks + M))))) ∧
      m1.Keeps m2 ({f} + (c.states.blocks + (scolsBlocks T + (c.counts.blocks + (c.datarows.blocks + M))))) := by
    unfold freeSymbols
    rcases hS with ⟨e1, e2⟩ | ⟨a, l, e1, e2, e3, e4, e5⟩
    · rw [e1]
      exact ⟨m1, rfl, w1.as (by rw [e2, zero_add]), Keeps.refl _ _⟩
    · rw [e1]
      have e2' : m1.blocks a = some (.pointers l) := by rw [k1.same a (by simp [e5]), e2]
      obtain ⟨m2, a2, w2, k2, n2⟩ := freeFilePtrs_spec (a := a) (M := {f} + (c.states.blocks + (scolsBlocks T + (c.counts.blocks + (c.datarows.blocks + M))))) (m := m1) (l := l)
        (w1.as (by rw [e5]; abel)) e2' e4
      obtain ⟨m3, a3, w3, k3, n3⟩ := Within.release (q := .block a) (by simp) (m := m2) (M := {f} + (c.states.blocks + (scolsBlocks T + (c.counts.blocks + (c.datarows.blocks + M))))) w2
      refine ⟨m3, ?_, w3, (k2.mono (Multiset.le_add_left _ _)).trans k3⟩
      rw [isNull_block, ok_bind, if_neg (by simp), ← e3, a2, ok_bind, a3]
  obtain ⟨m2, a2, w2, k2⟩ := key2
  have key3 : ∃ m3, m2.freeAllStates c = ok m3 ∧ m3.Within ({f} + (c.counts.blocks + (c.datarows.blocks + M))) ∧ m2.Keeps m3 ({f} + (c.counts.blocks + (c.datarows.blocks + M))) := by
    unfold freeAllStates
    rcases hT with ⟨e1, e2⟩ | ⟨a, k, e1, e2, e3, e4, e5, e6⟩
    · rw [e1]
      exact ⟨m2, rfl, w2.as (by rw [e2, e1]; simp [scolsBlocks, MemPtr.blocks]), Keeps.refl _ _⟩
    · rw [e1, e2]
      simp only [e1, e2, blocks_block] at w1 w2 k1 k2 ⊢
      have sub : {f} + ({a} + (scolsBlocks T + ({k} + (c.datarows.blocks + M)))) ≤ {f} + (S + ({a} + (scolsBlocks T + ({k} + (c.datarows.blocks + M))))) := by
        rw [Multiset.le_iff_exists_add]; exact ⟨S, by abel⟩
      have k12 := k1.mono sub |>.trans k2
      have e3' : m2.blocks a = some (.pointers (T.map SCol.ptr)) := by rw [k12.same a (by simp), e3]
      have e4' : m2.blocks k = some (.ints (T.map (fun x => x.links.length))) := by rw [k12.same k (by simp), e4]
      have e6' : ∀ x ∈ T, x.Good m2 := fun x hx => (e6 x hx).keep (k12.mono (by
        refine (scolsBlocks_mem hx).trans ?_
        rw [Multiset.le_iff_exists_add]; exact ⟨{f} + ({a} + ({k} + (c.datarows.blocks + M))), by abel⟩)).same
      obtain ⟨m3, a3, w3, k3⟩ := loop_inv (n := T.length) (f := fun i (m : FileMemory) => m.freeStates (.block a) (.block k) i) (s := m2)
        (fun i m' => m'.Within (scolsBlocks (T.drop i) + ({a} + ({k} + ({f} + (c.datarows.blocks + M))))) ∧
          m2.Keeps m' (scolsBlocks (T.drop i) + ({a} + ({k} + ({f} + (c.datarows.blocks + M)))))) ⟨w2.as (by rw [List.drop_zero]; abel), Keeps.refl _ _⟩ (by
          rintro i hi m4 ⟨w4, k4⟩
          rw [List.drop_eq_getElem_cons hi, scolsBlocks_cons, add_assoc] at w4 k4
          have hx := e6' T[i] (List.getElem_mem hi)
          obtain ⟨m5, a5, w5, k5, n5⟩ := freeStates_spec (x := T[i]) (a := a) (k := k) (i := i) (M := scolsBlocks (T.drop (i + 1)) + ({f} + (c.datarows.blocks + M))) (m := m4)
            (P := T.map SCol.ptr) (N := T.map (fun x => x.links.length)) (w4.as (by abel)) (hx.keep (k4.mono (Multiset.le_add_right _ _)).same) (by rw [k4.same a (by simp), e3'])
            (by rw [k4.same k (by simp), e4']) (by simp [List.getElem?_eq_getElem hi]) (by simp [List.getElem?_eq_getElem hi])
          refine ⟨m5, a5, w5.as (by abel), ?_⟩
          have he : {a} + ({k} + (scolsBlocks (T.drop (i + 1)) + ({f} + (c.datarows.blocks + M)))) = scolsBlocks (T.drop (i + 1)) + ({a} + ({k} + ({f} + (c.datarows.blocks + M)))) := by abel
          rw [he] at k5
          exact (k4.mono (Multiset.le_add_left _ _)).trans k5)
      rw [List.drop_length] at w3 k3
      obtain ⟨m4, a4, w4, k4, n4⟩ := Within.release (q := .block a) (by simp) (m := m3) (M := {f} + ({k} + (c.datarows.blocks + M))) (w3.as (by simp only [scolsBlocks, List.map_nil, List.sum_nil, blocks_block]; abel))
      refine ⟨m4, ?_, w4, ?_⟩
      · rw [isNull_block, ok_bind, if_neg (by simp), ← e5, a3, ok_bind, a4]
      · refine (k3.mono ?_).trans k4
        rw [Multiset.le_iff_exists_add]; exact ⟨{a}, by simp only [scolsBlocks, List.map_nil, List.sum_nil]; abel⟩
  obtain ⟨m3, a3, w3, k3⟩ := key3
  obtain ⟨m4, a4, w4, k4, n4⟩ := Within.release j2 (m := m3) (M := {f} + (c.datarows.blocks + M)) (w3.as (by abel))
  obtain ⟨m5, a5, w5, k5, n5⟩ := Within.release j3 (m := m4) (M := {f} + M) (w4.as (by abel))
  obtain ⟨m6, a6, w6, k6, n6⟩ := Within.release (q := .block f) (by simp) (m := m5) (M := M) w5
  refine ⟨m6, ?_, w6, ?_⟩
  · unfold closeData freeData
    rw [isNull_block]
    simp only [ok_bind, Bool.false_eq_true, if_false]
    rw [fileCellAt_eq hc, ok_bind, a1, ok_bind, a2, ok_bind, a3, ok_bind, a4, ok_bind, a5, ok_bind, a6]
  · have le1 : M ≤ {f} + (c.counts.blocks + (c.datarows.blocks + M)) := by rw [← add_assoc, ← add_assoc]; exact Multiset.le_add_left _ _
    have le2 : M ≤ {f} + (c.states.blocks + (scolsBlocks T + (c.counts.blocks + (c.datarows.blocks + M)))) := by
      rw [← add_assoc, ← add_assoc, ← add_assoc, ← add_assoc]; exact Multiset.le_add_left _ _
    have le3 : M ≤ {f} + (S + (c.states.blocks + (scolsBlocks T + (c.counts.blocks + (c.datarows.blocks + M))))) := by
      rw [← add_assoc, ← add_assoc, ← add_assoc, ← add_assoc, ← add_assoc]; exact Multiset.le_add_left _ _
    have le4 : M ≤ {f} + (c.datarows.blocks + M) := by rw [← add_assoc]; exact Multiset.le_add_left _ _
    exact (((((k1.mono le3).then k2 le2).then k3 le1).then k4 le4).then k5 (Multiset.le_add_left _ _)).trans k6

/-- Opening: NULL and memory as before, or a file with its name. -/
theorem openData_spec {m : FileMemory} {M : Multiset Nat} (h : m.Within M) (name : List Char) (write header opens : Bool) :
    (∃ m', m.openData name write header opens = ok (.null, m') ∧ m'.Within M ∧ m.Keeps m' M ∧ (opens = true → ∃ k, m.fails k = true)) ∨
    (∃ m' f s, m.openData name write header opens = ok (.block f, m') ∧ m'.Within ({f} + ({s} + M)) ∧ m.Keeps m' M ∧ m'.blocks s = some (.text name) ∧ opens = true ∧
      m'.blocks f = some (.file { write := write, header := header, name := .block s, ndatarows := 0, datarows := .null, nodes := 0, symbols := .null, counts := .null, states := .null }) ∧
      m'.next = m.next + 2) := by
  unfold openData
  rcases h.any (.file { write := write, header := header, name := .null, ndatarows := 0, datarows := .null, nodes := 0, symbols := .null, counts := .null, states := .null }) with
    ⟨m1, a1, f1, w1, k1, n1⟩ | ⟨m1, a1, f1, w1, b1, k1, n1⟩
  · simp only [a1]
    exact Or.inl ⟨m1, rfl, w1, k1, fun _ => ⟨_, f1⟩⟩
  · simp only [a1]
    rw [if_neg (by simp)]
    have le1 : M ≤ {m.next} + M := Multiset.le_add_left _ _
    cases opens with
    | false =>
      obtain ⟨m2, a2, w2, k2, n2⟩ := Within.release (q := .block m.next) (by simp) (m := m1) (M := M) w1
      refine Or.inl ⟨m2, ?_, w2, k1.trans k2, by simp⟩
      simp only [Bool.not_false, if_true, a2, ok_bind]
    | true =>
      simp only [Bool.not_true, Bool.false_eq_true, if_false]
      rcases w1.any (.text name) with ⟨m2, a2, f2, w2, k2, n2⟩ | ⟨m2, a2, f2, w2, b2, k2, n2⟩
      · obtain ⟨m3, a3, w3, k3, n3⟩ := Within.release (q := .block m.next) (by simp) (m := m2) (M := M) w2
        refine Or.inl ⟨m3, ?_, w3, (k1.then k2 le1).trans k3, fun _ => ⟨m1.next, by rw [← k1.fails]; exact f2⟩⟩
        rw [a2]
        simp only [beq_self_eq_true, if_true, a3, ok_bind]
      · obtain ⟨m3, a3, w3, b3, k3, n3⟩ := Within.write (a := m.next) (M := {m1.next} + M) (m := m2) (w2.as (by abel))
          (.file { write := write, header := header, name := .block m1.next, ndatarows := 0, datarows := .null, nodes := 0, symbols := .null, counts := .null, states := .null })
        refine Or.inr ⟨m3, m.next, m1.next, ?_, w3, (k1.then k2 le1).then k3 (Multiset.le_add_left _ _), by rw [k3.same _ (by simp), b2], trivial, b3, by omega⟩
        rw [a2]
        simp only
        rw [if_neg (by simp), a3]
        rfl

/-- the pointers to the names of columns -/
def symPtrs (l : List (Nat × List Char)) : List MemPtr := l.map (fun s => .block s.1)

theorem mem_symPtrs {l : List (Nat × List Char)} {s : Nat × List Char} (h : s ∈ l) : s.1 ∈ ptrBlocks (symPtrs l) := mem_ptrBlocks (List.mem_map_of_mem (f := fun s : Nat × List Char => MemPtr.block s.1) h)

/-- The names of columns from column `l.length` on, whether or not there is memory. -/
theorem newSymbols_spec {a b : Nat} {line : List Char} {bounds : List Nat} (words : List (List Char)) (l : List (Nat × List Char)) {m : FileMemory} {M : Multiset Nat}
    (h : m.Within (ptrBlocks (symPtrs l) + ({a} + ({b} + M)))) (ha : m.blocks a = some (.pointers (symPtrs l ++ List.replicate words.length .null))) (hb : m.blocks b = some (.ints bounds))
    (hl : ∀ s ∈ l, m.blocks s.1 = some (.text s.2)) (hw : ∀ j (hj : j < words.length), copyToken line bounds (l.length + j) = ok words[j]) :
    (∃ m' l', newSymbols true line (.block b) (.block a) words.length l.length m = ok (false, m') ∧ m'.Within (ptrBlocks (symPtrs l') + ({a} + ({b} + M))) ∧ m.Keeps m' ({b} + M) ∧
      m'.blocks a = some (.pointers (symPtrs l' ++ List.replicate (l.length + words.length - l'.length) .null)) ∧ l'.length ≤ l.length + words.length ∧ ∃ k, m.fails k = true) ∨
    (∃ m' l', newSymbols true line (.block b) (.block a) words.length l.length m = ok (true, m') ∧ m'.Within (ptrBlocks (symPtrs l') + ({a} + ({b} + M))) ∧ m.Keeps m' ({b} + M) ∧
      m'.blocks a = some (.pointers (symPtrs l')) ∧ l'.map Prod.snd = l.map Prod.snd ++ words ∧ (∀ s ∈ l', m'.blocks s.1 = some (.text s.2)) ∧ m'.next = m.next + words.length ∧
      ∀ j < words.length, m.fails (m.next + j) = false) := by
  induction words generalizing l m with
  | nil => exact Or.inr ⟨m, l, rfl, h, Keeps.refl _ _, by simpa using ha, by simp, hl, rfl, by simp⟩
  | cons w rest ih =>
    have hw0 : copyToken line bounds l.length = ok w := hw 0 (by simp)
    have hM : {b} + M ≤ ptrBlocks (symPtrs l) + ({a} + ({b} + M)) := (Multiset.le_add_left _ {a}).trans (Multiset.le_add_left _ _)
    have hlen : (symPtrs l).length = l.length := by simp [symPtrs]
    rcases h.any (.text w) with ⟨m1, a1, f1, w1, k1, n1⟩ | ⟨m1, a1, f1, w1, b1, k1, n1⟩
    · left
      have ea : m1.blocks a = some (.pointers (symPtrs l ++ List.replicate (rest.length + 1) .null)) := by rw [k1.same a (by simp), ha]; rfl
      obtain ⟨m2, a2, w2, b2, k2, n2⟩ := Within.setFilePtr (M := ptrBlocks (symPtrs l) + ({b} + M)) (w1.as (by abel)) ea (i := l.length) (by simp [hlen]) .null
      refine ⟨m2, l, ?_, w2.as (by abel), (k1.mono hM).then k2 (Multiset.le_add_left _ _), ?_, by simp, _, f1⟩
      · rw [List.length_cons, newSymbols]
        simp only [if_true]
        rw [fileIntsAt_eq hb, ok_bind, hw0, ok_bind, a1]
        simp only [a2, ok_bind, beq_self_eq_true, if_true]
      · rw [b2, List.length_cons, show l.length + (rest.length + 1) - l.length = rest.length + 1 by omega]
        have := set_replicate_null (symPtrs l) rest.length .null
        rw [hlen] at this
        rw [this, List.append_assoc]
        rfl
    · have ea : m1.blocks a = some (.pointers (symPtrs l ++ List.replicate (rest.length + 1) .null)) := by rw [k1.same a (by simp), ha]; rfl
      obtain ⟨m2, a2, w2, b2, k2, n2⟩ := Within.setFilePtr (M := {m.next} + (ptrBlocks (symPtrs l) + ({b} + M))) (w1.as (by abel)) ea (i := l.length) (by simp [hlen]) (.block m.next)
      have hset := set_replicate_null (symPtrs l) rest.length (.block m.next)
      rw [hlen] at hset
      rw [hset] at b2
      have happ : symPtrs l ++ [.block m.next] = symPtrs (l ++ [(m.next, w)]) := by simp [symPtrs]
      rw [happ] at b2
      have k : m.Keeps m2 ({b} + M) := (k1.mono hM).then k2 ((Multiset.le_add_left _ _).trans (Multiset.le_add_left _ _))
      have hb2 : m2.blocks b = some (.ints bounds) := by rw [k.same b (by simp), hb]
      have hstep : newSymbols true line (.block b) (.block a) (w :: rest).length l.length m = newSymbols true line (.block b) (.block a) rest.length (l ++ [(m.next, w)]).length m2 := by
        rw [List.length_cons, newSymbols]
        simp only [if_true]
        rw [fileIntsAt_eq hb, ok_bind, hw0, ok_bind, a1]
        simp only [a2, ok_bind]
        rw [if_neg (by simp)]
        simp
      have hl2 : ∀ s ∈ l ++ [(m.next, w)], m2.blocks s.1 = some (.text s.2) := by
        intro s hs
        rcases List.mem_append.1 hs with hs | hs
        · have hm := mem_symPtrs hs
          rw [k2.same _ (by simp [hm]), k1.same _ (by simp [hm])]
          exact hl s hs
        · rw [List.mem_singleton.1 hs, k2.same _ (by simp)]
          exact b1
      have hlen2 : (l ++ [(m.next, w)]).length = l.length + 1 := by simp
      rcases ih (l ++ [(m.next, w)]) (w2.as (by rw [← happ, ptrBlocks_append, ptrBlocks_single, MemPtr.blocks]; abel)) b2 hb2 hl2 (by
          intro j hj
          have := hw (j + 1) (by simp; exact hj)
          rw [hlen2, show l.length + 1 + j = l.length + (j + 1) by omega, this]
          simp) with ⟨m3, l', a3, w3, k3, b3, c3, kf, f3⟩ | ⟨m3, l', a3, w3, k3, b3, c3, g3, n3, f3⟩
      · refine Or.inl ⟨m3, l', hstep.trans a3, w3, k.trans k3, ?_, ?_, kf, by rw [← k.fails]; exact f3⟩
        · rw [b3, hlen2, List.length_cons, show l.length + 1 + rest.length = l.length + (rest.length + 1) by omega]
        · rw [hlen2] at c3; rw [List.length_cons]; omega
      · refine Or.inr ⟨m3, l', hstep.trans a3, w3, k.trans k3, b3, by rw [c3]; simp, g3, by rw [List.length_cons]; omega, fun j hj => ?_⟩
        rcases j with _ | j
        · exact f1
        · rw [List.length_cons] at hj
          have := f3 j (by omega)
          rw [k.fails, n2, n1] at this
          rw [← this]
          congr 1
          omega

end Nip
