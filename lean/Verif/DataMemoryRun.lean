import Verif.DataMemoryClose
import Verif.JointLemmas

/-! # Lemmas about the memory of data files: the analysis -/

namespace Nip

open Res Spec Store

/-- `loop` from an index on -/
def loopFrom {σ : Type} (f : Nat → σ → Res σ) : (k i : Nat) → σ → Res σ
  | 0, _, s => ok s
  | k + 1, i, s => (f i s).bind (loopFrom f k (i + 1))

theorem loopFrom_last {σ : Type} (f : Nat → σ → Res σ) (k i : Nat) (s : σ) : loopFrom f (k + 1) i s = (loopFrom f k i s).bind (f (i + k)) := by
  induction k generalizing i s with
  | zero =>
    change (f i s).bind (fun s => ok s) = f i s
    cases f i s <;> rfl
  | succ k ih =>
    rw [loopFrom]
    conv_rhs => rw [loopFrom]
    cases f i s with
    | ub => rfl
    | ok x =>
      rw [ok_bind', ok_bind', ih, show i + 1 + k = i + (k + 1) by omega]

theorem loop_from {σ : Type} (n : Nat) (f : Nat → σ → Res σ) (s : σ) : loop n f s = loopFrom f n 0 s := by
  induction n with
  | zero => rfl
  | succ n ih => rw [loop_succ, loopFrom_last, ih, Nat.zero_add]

/-- the body of the loop of `accumulateStateNames` -/
def accStep (line : List Char) (bounds : List Nat) (i : Nat) (names : List (List (List Char))) : Res (List (List (List Char))) := do
  let token ← copyToken line bounds i
  if nullObservation token then ok names
  else do
    let l ← rd names i
    if l.any (fun w => token == w) then ok names else wr names i (token :: l)

theorem accumulate_from (names : List (List (List Char))) (line : List Char) (bounds : List Nat) (n : Nat) :
    accumulateStateNames names line bounds n = loopFrom (accStep line bounds) n 0 names := loop_from n _ names

/-! ### all lists -/

/-- the pointers to the lists -/
def colPtrs (C : List NCol) : List MemPtr := C.map (fun c => .block c.addr)

/-- the blocks of all lists -/
def colsBlocks (C : List NCol) : Multiset Nat := (C.map NCol.blocks).sum

theorem colsBlocks_cons (c : NCol) (C : List NCol) : colsBlocks (c :: C) = c.blocks + colsBlocks C := by simp [colsBlocks]

theorem colsBlocks_append (C D : List NCol) : colsBlocks (C ++ D) = colsBlocks C + colsBlocks D := by simp [colsBlocks]

theorem colsBlocks_mem {C : List NCol} {c : NCol} (h : c ∈ C) : c.blocks ≤ colsBlocks C := by
  obtain ⟨l1, l2, rfl⟩ := List.append_of_mem h
  rw [colsBlocks_append, colsBlocks_cons]
  exact (Multiset.le_add_right _ _).trans (Multiset.le_add_left _ _)

theorem split_at_index {α : Type} {l : List α} {i : Nat} (h : i < l.length) : ∃ A x D, l = A ++ x :: D ∧ A.length = i :=
  ⟨l.take i, l[i], l.drop (i + 1), by rw [← List.drop_eq_getElem_cons h, List.take_append_drop], by rw [List.length_take]; omega⟩

/-- The names of a line are added to the lists. -/
theorem addNames_spec {b s : Nat} {bounds : List Nat} {line : List Char} (k i : Nat) (C : List NCol) {N' : List (List (List Char))} {m : FileMemory} {M : Multiset Nat}
    (h : m.Within ({b} + ({s} + (colsBlocks C + M)))) (hb : m.blocks b = some (.ints bounds)) (hs : m.blocks s = some (.pointers (colPtrs C))) (hg : ∀ c ∈ C, c.Good m)
    (hf : ∀ k, m.fails k = false) (hp : loopFrom (accStep line bounds) k i (C.map NCol.names) = ok N') :
    ∃ m' C', addNames (.block s) line (.block b) k i m = ok (true, m') ∧ m'.Within ({b} + ({s} + (colsBlocks C' + M))) ∧ colPtrs C' = colPtrs C ∧ (∀ c ∈ C', c.Good m') ∧
      C'.map NCol.names = N' ∧ m.Keeps m' ({b} + ({s} + M)) := by
  induction k generalizing i C m with
  | zero =>
    cases hp
    exact ⟨m, C, rfl, h, rfl, hg, rfl, Keeps.refl _ _⟩
  | succ k ih =>
    obtain ⟨N1, hN1, hrest⟩ := bind_ok (show (accStep line bounds i (C.map NCol.names) >>= loopFrom (accStep line bounds) k (i + 1)) = ok N' from hp)
    unfold accStep at hN1
    obtain ⟨w, hw, hN1⟩ := bind_ok hN1
    obtain ⟨m1, a1, w1, b1, k1, n1⟩ := h.given (hf _) (.text w)
    have hstart : ∀ (X : Res (Bool × FileMemory)), (if nullObservation w then do
          let m ← m1.free (.block m.next)
          addNames (.block s) line (.block b) k (i + 1) m
        else do
          let l ← m1.filePtrAt (.block s) i
          let seen ← m1.hasName l w
          if seen then do
            let m ← m1.free (.block m.next)
            addNames (.block s) line (.block b) k (i + 1) m
          else do
            let (good, m') ← m1.prependName l (.block m.next)
            if good then addNames (.block s) line (.block b) k (i + 1) m'
            else do
              let m ← m'.free (.block m.next)
              ok (true, m)) = X → addNames (.block s) line (.block b) (k + 1) i m = X := by
      rintro X rfl
      rw [addNames, fileIntsAt_eq hb, ok_bind, hw, ok_bind, a1]
      simp only
      rw [if_neg (by simp)]
    -- the text is freed again
    have back : N1 = C.map NCol.names → ∃ m2, m1.free (.block m.next) = ok m2 ∧ ∃ m' C', addNames (.block s) line (.block b) k (i + 1) m2 = ok (true, m') ∧
        m'.Within ({b} + ({s} + (colsBlocks C' + M))) ∧ colPtrs C' = colPtrs C ∧ (∀ c ∈ C', c.Good m') ∧ C'.map NCol.names = N' ∧ m.Keeps m' ({b} + ({s} + M)) := by
      rintro rfl
      obtain ⟨m2, a2, w2, k2, n2⟩ := Within.release (q := .block m.next) (by simp) (m := m1) (M := {b} + ({s} + (colsBlocks C + M))) w1
      have k12 := k1.trans k2
      obtain ⟨m3, C', a3, w3, c3, g3, e3, k3⟩ := ih (i + 1) C w2 (by rw [k12.same b (by simp), hb]) (by rw [k12.same s (by simp), hs])
        (fun c hc => (hg c hc).keep (k12.mono ((colsBlocks_mem hc).trans (by rw [Multiset.le_iff_exists_add]; exact ⟨{b} + ({s} + M), by abel⟩))).same)
        (by intro j; rw [k12.fails]; exact hf j) hrest
      refine ⟨m2, a2, m3, C', a3, w3, c3, g3, e3, (k12.mono ?_).trans k3⟩
      rw [Multiset.le_iff_exists_add]; exact ⟨colsBlocks C, by abel⟩
    by_cases hnull : nullObservation w = true
    · rw [if_pos hnull] at hN1
      cases hN1
      obtain ⟨m2, a2, m3, C', a3, r⟩ := back rfl
      exact ⟨m3, C', hstart _ (by rw [if_pos hnull, a2, ok_bind, a3]), r⟩
    · rw [if_neg hnull] at hN1
      obtain ⟨l, hl, hN1⟩ := bind_ok hN1
      have hi : i < C.length := by
        rw [rd_eq_ok, List.getElem?_map] at hl
        obtain ⟨x, hx, _⟩ := Option.map_eq_some_iff.1 hl
        exact (List.getElem?_eq_some_iff.1 hx).1
      obtain ⟨A, x, D, hC, hA⟩ := split_at_index hi
      have hlx : l = x.names := by
        rw [rd_eq_ok, hC, List.getElem?_map, List.getElem?_append_right (by omega), hA, Nat.sub_self] at hl
        simpa using hl.symm
      subst hlx
      have hs1 : m1.blocks s = some (.pointers (colPtrs C)) := by rw [k1.same s (by simp), hs]
      have hptr : m1.filePtrAt (.block s) i = ok (.block x.addr) := by
        rw [filePtrAt_eq hs1 (by unfold colPtrs; rw [List.length_map]; exact hi)]
        congr 1
        simp [colPtrs, hC, hA, List.getElem_append_right]
      have g1 : ∀ c ∈ C, c.Good m1 := fun c hc => (hg c hc).keep (k1.mono ((colsBlocks_mem hc).trans (by rw [Multiset.le_iff_exists_add]; exact ⟨{b} + ({s} + M), by abel⟩))).same
      have hx1 : x.Good m1 := g1 x (by rw [hC]; simp)
      by_cases hseen : x.names.any (fun v => w == v) = true
      · rw [if_pos hseen] at hN1
        cases hN1
        obtain ⟨m2, a2, m3, C', a3, r⟩ := back rfl
        refine ⟨m3, C', hstart _ ?_, r⟩
        rw [if_neg hnull, hptr, ok_bind, hasName_spec hx1, ok_bind, if_pos hseen, a2, ok_bind, a3]
      · rw [if_neg hseen, wr_lt (by rw [List.length_map]; exact hi)] at hN1
        cases hN1
        obtain ⟨m2, a2, w2, g2, k2, n2⟩ := prependName_spec (c := x) (t := m.next) (w := w) (M := {b} + ({s} + (colsBlocks A + (colsBlocks D + M)))) (m := m1)
          (w1.as (by rw [hC, colsBlocks_append, colsBlocks_cons]; abel)) hx1 b1 (by rw [k1.fails]; exact hf _)
        let x' : NCol := ⟨x.addr, ⟨m1.next, m.next, w⟩ :: x.links⟩
        have k12 : m.Keeps m2 ({b} + ({s} + (colsBlocks A + (colsBlocks D + M)))) := by
          refine (k1.mono ?_).trans k2
          rw [Multiset.le_iff_exists_add, hC, colsBlocks_append, colsBlocks_cons]; exact ⟨x.blocks, by abel⟩
        have hcp : colPtrs (A ++ x' :: D) = colPtrs C := by rw [hC]; simp [colPtrs, x']
        have hnm : (A ++ x' :: D).map NCol.names = (C.map NCol.names).set i (w :: x.names) := by
          rw [hC]
          simp only [List.map_append, List.map_cons]
          rw [List.set_append_right _ _ (by rw [List.length_map]; omega), List.length_map, hA, Nat.sub_self]
          rfl
        obtain ⟨m3, C', a3, w3, c3, g3, e3, k3⟩ := ih (i + 1) (A ++ x' :: D) (m := m2)
          (w2.as (by rw [colsBlocks_append, colsBlocks_cons]; abel)) (by rw [k12.same b (by simp), hb]) (by rw [k12.same s (by simp), hs, hcp])
          (by
            intro c hc
            rcases List.mem_append.1 hc with hc | hc
            · refine (g1 c (by rw [hC]; exact List.mem_append_left _ hc)).keep (k2.mono ((colsBlocks_mem hc).trans ?_)).same
              rw [Multiset.le_iff_exists_add]; exact ⟨{b} + ({s} + (colsBlocks D + M)), by abel⟩
            · rcases List.mem_cons.1 hc with rfl | hc
              · exact g2
              · refine (g1 c (by rw [hC]; exact List.mem_append_right _ (List.mem_cons_of_mem _ hc))).keep (k2.mono ((colsBlocks_mem hc).trans ?_)).same
                rw [Multiset.le_iff_exists_add]; exact ⟨{b} + ({s} + (colsBlocks A + M)), by abel⟩)
          (by intro j; rw [k12.fails]; exact hf j) (by rw [hnm]; exact hrest)
        refine ⟨m3, C', hstart _ ?_, w3, c3.trans hcp, g3, e3, (k12.mono ?_).trans k3⟩
        · rw [if_neg hnull, hptr, ok_bind, hasName_spec hx1, ok_bind, if_neg hseen, a2, ok_bind]
          simp only [if_true]
          exact a3
        · rw [Multiset.le_iff_exists_add]; exact ⟨colsBlocks A + colsBlocks D, by abel⟩

/-- Empty lists are created. -/
theorem newLists_spec {m : FileMemory} {M : Multiset Nat} {s n : Nat} (h : m.Within ({s} + M)) (e : m.blocks s = some (.pointers (List.replicate n .null))) (hf : ∀ k, m.fails k = false) :
    ∃ m' C, m.newLists (.block s) n = ok m' ∧ m'.Within ({s} + (colsBlocks C + M)) ∧ m'.blocks s = some (.pointers (colPtrs C)) ∧ C.map NCol.names = List.replicate n [] ∧
      (∀ c ∈ C, c.Good m') ∧ m.Keeps m' M := by
  obtain ⟨m', e1, C, e2, e3, e4, e5, e6⟩ := loop_inv (n := n) (f := fun i (m : FileMemory) => do
      let (l, m) := m.newNames
      m.setFilePtr (.block s) i l) (s := m)
    (fun i m' => ∃ C, m'.Within ({s} + (colsBlocks C + M)) ∧ m'.blocks s = some (.pointers (colPtrs C ++ List.replicate (n - i) .null)) ∧ C.map NCol.names = List.replicate i [] ∧
      (∀ c ∈ C, c.Good m') ∧ m.Keeps m' M)
    ⟨[], h.as (by simp [colsBlocks]), by simpa [colPtrs] using e, rfl, by simp, Keeps.refl _ _⟩ (by
      rintro i hi m1 ⟨C, w1, b1, c1, g1, k1⟩
      obtain ⟨m2, a2, w2, b2, k2, n2⟩ := w1.given (by rw [k1.fails]; exact hf _) (.list { length := 0, first := .null, last := .null })
      have hl : C.length = i := by simpa using congrArg List.length c1
      have hlp : (colPtrs C).length = i := by unfold colPtrs; rw [List.length_map, hl]
      obtain ⟨r, hr⟩ : ∃ r, n - i = r + 1 := ⟨n - i - 1, by omega⟩
      have b1' : m2.blocks s = some (.pointers (colPtrs C ++ List.replicate (r + 1) .null)) := by rw [k2.same s (by simp), b1, hr]
      obtain ⟨m3, a3, w3, b3, k3, n3⟩ := Within.setFilePtr (a := s) (i := i) (M := {m1.next} + (colsBlocks C + M)) (w2.as (by abel)) b1' (by simp [hlp]) (.block m1.next)
      have hset := set_replicate_null (colPtrs C) r (.block m1.next)
      rw [hlp] at hset
      refine ⟨m3, ?_, C ++ [⟨m1.next, []⟩], w3.as ?_, ?_, ?_, ?_, ?_⟩
      · simp only [newNames, a2, a3]
      · rw [colsBlocks_append, colsBlocks_cons]
        simp only [colsBlocks, NCol.blocks, linkPtrs, textPtrs, List.map_nil, List.sum_nil, ptrBlocks_nil]
        abel
      · rw [b3, hset, show n - (i + 1) = r by omega]
        simp [colPtrs]
      · rw [List.map_append, c1, List.replicate_succ']
        rfl
      · intro c hc
        rcases List.mem_append.1 hc with hc | hc
        · have hle : c.blocks ≤ colsBlocks C + M := (colsBlocks_mem hc).trans (Multiset.le_add_right _ _)
          exact ((g1 c hc).keep (k2.mono (hle.trans (Multiset.le_add_left _ _))).same).keep (k3.mono (hle.trans (Multiset.le_add_left _ _))).same
        · rw [List.mem_singleton.1 hc]
          refine ⟨?_, by intro j hj; simp at hj, by simp⟩
          change m3.blocks m1.next = _
          rw [k3.same _ (by simp), b2]
          rfl
      · refine (k1.then k2 ?_).then k3 ?_ <;>
        · rw [← add_assoc]; exact Multiset.le_add_left _ _)
  refine ⟨m', C, e1, e2, ?_, e4, e5, e6⟩
  rw [e3]
  simp

end Nip
