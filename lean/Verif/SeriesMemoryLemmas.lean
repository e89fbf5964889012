import Verif.SeriesMemory
import Verif.PotentialMemoryLemmas

/-! # Lemmas about the memory of time series and results -/

namespace Nip

open Res Spec

namespace Store

variable {B : Type}

/-- The blocks of `M` are as before, and what had been freed is not in use again. -/
structure Keeps (m m' : Store B) (M : Multiset Nat) : Prop where
  same : m.SameOn m' M
  fails : m'.fails = m.fails
  later : m.next ≤ m'.next
  gone : ∀ b, b < m.next → m.blocks b = none → m'.blocks b = none

theorem Keeps.refl (m : Store B) (M : Multiset Nat) : m.Keeps m M := ⟨SameOn.refl m M, rfl, le_rfl, fun _ _ h => h⟩

theorem Keeps.trans {m m' m'' : Store B} {M : Multiset Nat} (h : m.Keeps m' M) (h' : m'.Keeps m'' M) : m.Keeps m'' M :=
  ⟨h.same.trans h'.same, h'.fails.trans h.fails, h.later.trans h'.later, fun b hb e => h'.gone b (lt_of_lt_of_le hb h.later) (h.gone b hb e)⟩

theorem Keeps.mono {m m' : Store B} {M N : Multiset Nat} (h : m.Keeps m' M) (hs : N ≤ M) : m.Keeps m' N := ⟨h.same.mono hs, h.fails, h.later, h.gone⟩

theorem Keeps.then {m m' m'' : Store B} {M N : Multiset Nat} (h : m.Keeps m' M) (h' : m'.Keeps m'' N) (hs : M ≤ N) : m.Keeps m'' M := h.trans (h'.mono hs)

/-- `malloc` and `calloc`, whether or not there is memory -/
theorem Within.any {m : Store B} {M : Multiset Nat} (h : m.Within M) (b : B) :
    (∃ m', m.alloc b = (.null, m') ∧ m.fails m.next = true ∧ m'.Within M ∧ m.Keeps m' M ∧ m'.next = m.next + 1) ∨
    (∃ m', m.alloc b = (.block m.next, m') ∧ m.fails m.next = false ∧ m'.Within ({m.next} + M) ∧ m'.blocks m.next = some b ∧ m.Keeps m' M ∧ m'.next = m.next + 1) := by
  cases hf : m.fails m.next with
  | true =>
    obtain ⟨m', a1, w1, s1, f1, n1⟩ := h.allocNull hf b
    refine Or.inl ⟨m', a1, rfl, w1, ⟨s1, f1, by omega, fun c hc e => ?_⟩, n1⟩
    cases e' : m'.blocks c with
    | none => rfl
    | some x =>
      have := (w1.used c).1 (by rw [e']; rfl)
      rw [s1 c this, e] at e'
      cases e'
  | false =>
    obtain ⟨m', a1, w1, b1, s1, f1, n1⟩ := h.alloc hf b
    refine Or.inr ⟨m', a1, rfl, w1, b1, ⟨s1, f1, by omega, fun c hc e => ?_⟩, n1⟩
    cases e' : m'.blocks c with
    | none => rfl
    | some x =>
      have := (w1.used c).1 (by rw [e']; rfl)
      rw [Multiset.singleton_add, Multiset.mem_cons] at this
      rcases this with rfl | this
      · omega
      · rw [s1 c this, e] at e'
        cases e'

/-- `free` -/
theorem Within.release {m : Store B} {M : Multiset Nat} {q : MemPtr} (hq : q ≠ .junk) (h : m.Within (q.blocks + M)) :
    ∃ m', m.free q = ok m' ∧ m'.Within M ∧ m.Keeps m' M ∧ m'.next = m.next := by
  cases q with
  | junk => exact absurd rfl hq
  | null => exact ⟨m, rfl, h.as (by simp [MemPtr.blocks]), Keeps.refl _ _, rfl⟩
  | block a =>
    obtain ⟨m', a1, w1, s1, f1, n1⟩ := Store.Within.free (a := a) h
    refine ⟨m', a1, w1, ⟨s1, f1, by omega, fun c hc e => ?_⟩, n1⟩
    cases e' : m'.blocks c with
    | none => rfl
    | some x =>
      have := (w1.used c).1 (by rw [e']; rfl)
      rw [s1 c this, e] at e'
      cases e'

/-- writing a block -/
theorem Within.write {m : Store B} {M : Multiset Nat} {a : Nat} (h : m.Within ({a} + M)) (b : B) :
    ∃ m', m.put (.block a) b = ok m' ∧ m'.Within ({a} + M) ∧ m'.blocks a = some b ∧ m.Keeps m' M ∧ m'.next = m.next := by
  obtain ⟨m', a1, w1, b1, s1, f1, n1⟩ := h.put b
  refine ⟨m', a1, w1, b1, ⟨s1, f1, by omega, fun c hc e => ?_⟩, n1⟩
  cases e' : m'.blocks c with
  | none => rfl
  | some x =>
    have := (w1.used c).1 (by rw [e']; rfl)
    rw [← h.used c, e] at this
    cases this

theorem seriesAt_eq {m : SeriesMemory} {a : Nat} {c : SeriesCell} (h : m.blocks a = some (.series c)) : m.seriesAt (.block a) = ok c := by
  unfold seriesAt Store.get
  simp only [h, ok_bind]

theorem resultsAt_eq {m : SeriesMemory} {a : Nat} {c : ResultsCell} (h : m.blocks a = some (.results c)) : m.resultsAt (.block a) = ok c := by
  unfold resultsAt Store.get
  simp only [h, ok_bind]

theorem pointersAt_eq {m : SeriesMemory} {a : Nat} {l : List MemPtr} (h : m.blocks a = some (.pointers l)) : m.pointersAt (.block a) = ok l := by
  unfold pointersAt Store.get
  simp only [h, ok_bind]

theorem entryAt_eq {m : SeriesMemory} {a i : Nat} {l : List MemPtr} (h : m.blocks a = some (.pointers l)) (hi : i < l.length) : m.entryAt (.block a) i = ok l[i] := by
  unfold entryAt
  rw [pointersAt_eq h, ok_bind, rd_lt hi]

theorem Within.setEntry {m : SeriesMemory} {M : Multiset Nat} {a i : Nat} {l : List MemPtr} (h : m.Within ({a} + M)) (e : m.blocks a = some (.pointers l)) (hi : i < l.length)
    (p : MemPtr) : ∃ m', m.setEntry (.block a) i p = ok m' ∧ m'.Within ({a} + M) ∧ m'.blocks a = some (.pointers (l.set i p)) ∧ m.Keeps m' M ∧ m'.next = m.next := by
  obtain ⟨m', a1, w1, b1, k1, n1⟩ := h.write (.pointers (l.set i p))
  refine ⟨m', ?_, w1, b1, k1, n1⟩
  unfold Store.setEntry
  rw [pointersAt_eq e, ok_bind, wr_lt hi, ok_bind, a1]

end Store

open Store

theorem ptrBlocks_nil : ptrBlocks [] = 0 := rfl

theorem ptrBlocks_single (q : MemPtr) : ptrBlocks [q] = q.blocks := by simp [ptrBlocks]

/-- The pointers of a list are freed from the start on. -/
theorem freeUp_spec {m : SeriesMemory} {M : Multiset Nat} {a : Nat} {l rest : List MemPtr} (h : m.Within (ptrBlocks l + ({a} + M)))
    (e : m.blocks a = some (.pointers (l ++ rest))) (hj : ∀ q ∈ l, q ≠ .junk) :
    ∃ m', m.freeUp (.block a) l.length = ok m' ∧ m'.Within ({a} + M) ∧ m.Keeps m' ({a} + M) ∧ m'.next = m.next := by
  obtain ⟨m', e1, e2, e3, e4⟩ := loop_inv (n := l.length) (f := fun i (m : SeriesMemory) => m.freeEntry (.block a) i) (s := m)
    (fun i m' => m'.Within (ptrBlocks (l.drop i) + ({a} + M)) ∧ m.Keeps m' ({a} + M) ∧ m'.next = m.next) ⟨by simpa using h, Keeps.refl _ _, rfl⟩ (by
      rintro i hi m1 ⟨w1, k1, n1⟩
      rw [List.drop_eq_getElem_cons hi, ptrBlocks_cons, add_assoc] at w1
      obtain ⟨m2, a2, w2, k2, n2⟩ := w1.release (hj _ (List.getElem_mem hi))
      refine ⟨m2, ?_, w2, k1.then k2 (Multiset.le_add_left _ _), n2.trans n1⟩
      have ea : m1.blocks a = some (.pointers (l ++ rest)) := by rw [k1.same a (by simp), e]
      unfold Store.freeEntry
      rw [entryAt_eq ea (by rw [List.length_append]; omega), ok_bind, List.getElem_append_left hi, a2])
  refine ⟨m', e1, ?_, e3, e4⟩
  simpa [ptrBlocks_nil] using e2

/-- The pointers of a list are freed from the end on. -/
theorem freeDown_spec {m : SeriesMemory} {M : Multiset Nat} {a : Nat} {l rest : List MemPtr} (h : m.Within (ptrBlocks l + ({a} + M)))
    (e : m.blocks a = some (.pointers (l ++ rest))) (hj : ∀ q ∈ l, q ≠ .junk) :
    ∃ m', m.freeDown (.block a) l.length = ok m' ∧ m'.Within ({a} + M) ∧ m.Keeps m' ({a} + M) ∧ m'.next = m.next := by
  obtain ⟨m', e1, e2, e3, e4⟩ := loopDown_inv (n := l.length) (f := fun i (m : SeriesMemory) => m.freeEntry (.block a) i) (s := m)
    (fun i m' => m'.Within (ptrBlocks (l.take i) + ({a} + M)) ∧ m.Keeps m' ({a} + M) ∧ m'.next = m.next) ⟨by simpa using h, Keeps.refl _ _, rfl⟩ (by
      rintro i hi m1 ⟨w1, k1, n1⟩
      rw [List.take_succ_eq_append_getElem hi, ptrBlocks_append, ptrBlocks_single] at w1
      have w1' : m1.Within (l[i].blocks + (ptrBlocks (l.take i) + ({a} + M))) := w1.as (by abel)
      obtain ⟨m2, a2, w2, k2, n2⟩ := w1'.release (hj _ (List.getElem_mem hi))
      refine ⟨m2, ?_, w2, k1.then k2 (Multiset.le_add_left _ _), n2.trans n1⟩
      have ea : m1.blocks a = some (.pointers (l ++ rest)) := by rw [k1.same a (by simp), e]
      unfold Store.freeEntry
      rw [entryAt_eq ea (by rw [List.length_append]; omega), ok_bind, List.getElem_append_left hi, a2])
  refine ⟨m', e1, ?_, e3, e4⟩
  simpa [ptrBlocks_nil] using e2

/-- A function that frees the first entries of an array. -/
def Releases (release : SeriesMemory → MemPtr → Nat → Res SeriesMemory) : Prop :=
  ∀ (m : SeriesMemory) (M : Multiset Nat) (a : Nat) (l rest : List MemPtr), m.Within (ptrBlocks l + ({a} + M)) → m.blocks a = some (.pointers (l ++ rest)) → (∀ q ∈ l, q ≠ .junk) →
    ∃ m', release m (.block a) l.length = ok m' ∧ m'.Within ({a} + M) ∧ m.Keeps m' ({a} + M) ∧ m'.next = m.next

theorem releases_up : Releases freeUp := fun _ _ _ _ _ h e hj => freeUp_spec h e hj

theorem releases_down : Releases freeDown := fun _ _ _ _ _ h e hj => freeDown_spec h e hj

theorem set_replicate_null (l : List MemPtr) (n : Nat) (p : MemPtr) :
    (l ++ List.replicate (n + 1) MemPtr.null).set l.length p = (l ++ [p]) ++ List.replicate n MemPtr.null := by
  rw [List.replicate_succ, List.set_append_right _ _ le_rfl]
  simp

/-- Entries of an array are allocated, or there is no memory and those so far are freed. -/
theorem newEntries_spec {release : SeriesMemory → MemPtr → Nat → Res SeriesMemory} (hr : Releases release) {a : Nat} (sizes : List Nat) (l : List MemPtr) (hj : ∀ q ∈ l, q ≠ .junk)
    {m : SeriesMemory} {M : Multiset Nat} (h : m.Within (ptrBlocks l + ({a} + M))) (e : m.blocks a = some (.pointers (l ++ List.replicate sizes.length .null))) :
    (∃ m' x, newEntries release (.block a) sizes l.length m = ok (false, m') ∧ m'.Within ({a} + M) ∧ m.Keeps m' M ∧ m'.blocks a = some x ∧ ∃ k, m.fails k = true ∧ m.next ≤ k ∧ k < m.next + sizes.length) ∨
    (∃ m' l', newEntries release (.block a) sizes l.length m = ok (true, m') ∧ l'.length = sizes.length ∧ (∀ q ∈ l', ∃ b, q = .block b) ∧
      m'.Within (ptrBlocks (l ++ l') + ({a} + M)) ∧ m'.blocks a = some (.pointers (l ++ l')) ∧ m.Keeps m' M ∧ m'.next = m.next + sizes.length) := by
  induction sizes generalizing l m with
  | nil => exact Or.inr ⟨m, [], rfl, rfl, by simp, by simpa using h, by simpa using e, Keeps.refl _ _, rfl⟩
  | cons n rest ih =>
    unfold newEntries
    have hM : M ≤ ptrBlocks l + ({a} + M) := (Multiset.le_add_left M {a}).trans (Multiset.le_add_left _ _)
    rcases h.any (.numbers n) with ⟨m1, a1, f1, w1, k1, n1⟩ | ⟨m1, a1, f1, w1, b1, k1, n1⟩
    · left
      rw [a1]
      have ea : m1.blocks a = some (.pointers (l ++ List.replicate (rest.length + 1) .null)) := by rw [k1.same a (by simp), e]; rfl
      obtain ⟨m2, a2, w2, b2, k2, n2⟩ := Within.setEntry (M := ptrBlocks l + M) (w1.as (by abel)) ea (i := l.length) (by simp) .null
      rw [set_replicate_null, List.append_assoc] at b2
      obtain ⟨m3, a3, w3, k3, n3⟩ := hr m2 M a l ([.null] ++ List.replicate rest.length .null) (w2.as (by abel)) b2 hj
      refine ⟨m3, .pointers (l ++ ([.null] ++ List.replicate rest.length .null)), ?_, w3, ?_, ?_, ⟨_, f1, by simp⟩⟩
      · simp only [a2, ok_bind, beq_self_eq_true, if_true, a3]
      · exact (((k1.mono hM).then k2 (Multiset.le_add_left _ _))).then k3 (Multiset.le_add_left _ _)
      · rw [k3.same a (by simp), b2]
    · rw [a1]
      have ea : m1.blocks a = some (.pointers (l ++ List.replicate (rest.length + 1) .null)) := by rw [k1.same a (by simp), e]; rfl
      obtain ⟨m2, a2, w2, b2, k2, n2⟩ := Within.setEntry (M := {m.next} + (ptrBlocks l + M)) (w1.as (by abel)) ea (i := l.length) (by simp) (.block m.next)
      rw [set_replicate_null] at b2
      have k : m.Keeps m2 M := (k1.mono hM).then k2 ((Multiset.le_add_left M _).trans (Multiset.le_add_left _ _))
      have w2' : m2.Within (ptrBlocks (l ++ [.block m.next]) + ({a} + M)) := w2.as (by rw [ptrBlocks_append, ptrBlocks_single, MemPtr.blocks]; abel)
      have hstep : ∀ x, newEntries release (.block a) rest (l.length + 1) m2 = x →
          (do
            let m' ← m1.setEntry (.block a) l.length (.block m.next)
            if (MemPtr.block m.next == .null) = true then do
              let m ← release m' (.block a) l.length
              ok (false, m)
            else newEntries release (.block a) rest (l.length + 1) m') = x := by
        rintro x rfl
        rw [a2, ok_bind, if_neg (by simp)]
      have hl : (l ++ [MemPtr.block m.next]).length = l.length + 1 := by simp
      rcases ih (l ++ [.block m.next]) (by
          intro q hq
          rcases List.mem_append.1 hq with hq | hq
          · exact hj q hq
          · rw [List.mem_singleton.1 hq]; simp) w2' b2 with ⟨m3, x, a3, w3, k3, b3, kf, f3, l3⟩ | ⟨m3, l', a3, c3, j3, w3, b3, k3, n3⟩
      · rw [hl] at a3
        exact Or.inl ⟨m3, x, hstep _ a3, w3, k.trans k3, b3, kf, by rw [← k.fails]; exact f3, by rw [n2, n1] at l3; rw [List.length_cons]; omega⟩
      · rw [hl] at a3
        refine Or.inr ⟨m3, .block m.next :: l', hstep _ a3, by simp [c3], ?_, w3.as (by simp), by rw [b3]; simp, k.trans k3, by simp; omega⟩
        intro q hq
        rcases List.mem_cons.1 hq with rfl | hq
        · exact ⟨_, rfl⟩
        · exact j3 q hq

/-! ### the steps of results -/

/-- the blocks of a step: its array, at the address that comes first, and the entries of the array -/
def stepBlocks (s : Nat × List MemPtr) : Multiset Nat := {s.1} + ptrBlocks s.2

/-- the blocks of all steps -/
def tableBlocks (T : List (Nat × List MemPtr)) : Multiset Nat := (T.map stepBlocks).sum

theorem tableBlocks_cons (s : Nat × List MemPtr) (T : List (Nat × List MemPtr)) : tableBlocks (s :: T) = stepBlocks s + tableBlocks T := by simp [tableBlocks]

theorem tableBlocks_append (T T' : List (Nat × List MemPtr)) : tableBlocks (T ++ T') = tableBlocks T + tableBlocks T' := by simp [tableBlocks]

theorem mem_tableBlocks {T : List (Nat × List MemPtr)} {s : Nat × List MemPtr} (h : s ∈ T) : s.1 ∈ tableBlocks T := by
  induction T with
  | nil => cases h
  | cons u T ih =>
    rw [tableBlocks_cons, Multiset.mem_add]
    rcases List.mem_cons.1 h with rfl | h
    · left
      simp [stepBlocks]
    · exact Or.inr (ih h)

/-- The arrays of the steps have `k` entries, all in use. -/
def TableGood (m : SeriesMemory) (k : Nat) (T : List (Nat × List MemPtr)) : Prop :=
  ∀ s ∈ T, m.blocks s.1 = some (.pointers s.2) ∧ s.2.length = k ∧ ∀ q ∈ s.2, ∃ b, q = .block b

theorem TableGood.keep {m m' : SeriesMemory} {k : Nat} {T : List (Nat × List MemPtr)} (h : TableGood m k T) (hs : m.SameOn m' (tableBlocks T)) : TableGood m' k T :=
  fun s hs' => ⟨by rw [hs _ (mem_tableBlocks hs'), (h s hs').1], (h s hs').2⟩

/-- the pointers to the steps -/
def stepPtrs (T : List (Nat × List MemPtr)) : List MemPtr := T.map (fun s => .block s.1)

theorem freeStep_spec {m : SeriesMemory} {M : Multiset Nat} {d t : Nat} {s : Nat × List MemPtr} {l : List MemPtr} (h : m.Within (stepBlocks s + M))
    (e : m.blocks d = some (.pointers l)) (ht : l[t]? = some (.block s.1)) (es : m.blocks s.1 = some (.pointers s.2)) (hj : ∀ q ∈ s.2, ∃ b, q = .block b) :
    ∃ m', m.freeStep (.block d) s.2.length t = ok m' ∧ m'.Within M ∧ m.Keeps m' M ∧ m'.next = m.next := by
  obtain ⟨hl, ht⟩ := List.getElem?_eq_some_iff.1 ht
  obtain ⟨m1, a1, w1, k1, n1⟩ := freeUp_spec (M := M) (a := s.1) (l := s.2) (rest := []) (h.as (by unfold stepBlocks; abel)) (by simpa using es) (by
    intro q hq
    obtain ⟨b, rfl⟩ := hj q hq
    simp)
  obtain ⟨m2, a2, w2, k2, n2⟩ := Within.release (q := .block s.1) (by simp) w1
  refine ⟨m2, ?_, w2, (k1.mono (Multiset.le_add_left _ _)).trans k2, n2.trans n1⟩
  unfold Store.freeStep
  rw [entryAt_eq e hl, ht, ok_bind, a1, ok_bind, a2]

theorem freeStepsDown_spec {m : SeriesMemory} {M : Multiset Nat} {d k : Nat} {T : List (Nat × List MemPtr)} {rest : List MemPtr} (h : m.Within (tableBlocks T + ({d} + M)))
    (e : m.blocks d = some (.pointers (stepPtrs T ++ rest))) (g : TableGood m k T) :
    ∃ m', loopDown T.length (fun t (m : SeriesMemory) => m.freeStep (.block d) k t) m = ok m' ∧ m'.Within ({d} + M) ∧ m.Keeps m' ({d} + M) ∧ m'.next = m.next := by
  obtain ⟨m', e1, e2, e3, e4⟩ := loopDown_inv (n := T.length) (f := fun t (m : SeriesMemory) => m.freeStep (.block d) k t) (s := m)
    (fun i m' => m'.Within (tableBlocks (T.take i) + ({d} + M)) ∧ m.Keeps m' (tableBlocks (T.take i) + ({d} + M)) ∧ m'.next = m.next) ⟨by simpa using h, Keeps.refl _ _, rfl⟩ (by
      rintro i hi m1 ⟨w1, k1, n1⟩
      have hT : tableBlocks (T.take (i + 1)) + ({d} + M) = stepBlocks T[i] + (tableBlocks (T.take i) + ({d} + M)) := by
        rw [List.take_succ_eq_append_getElem hi, tableBlocks_append, tableBlocks_cons]
        simp only [tableBlocks, List.map_nil, List.sum_nil, add_zero]
        abel
      rw [hT] at w1 k1
      have hs := g T[i] (List.getElem_mem hi)
      obtain ⟨m2, a2, w2, k2, n2⟩ := freeStep_spec (t := i) (d := d) (l := stepPtrs T ++ rest) w1 (by rw [k1.same d (by simp), e]) (by
          rw [List.getElem?_append_left (by simpa [stepPtrs] using hi)]
          simp [stepPtrs, hi]) (by rw [k1.same _ (by simp [stepBlocks]), hs.1]) hs.2.2
      rw [hs.2.1] at a2
      exact ⟨m2, a2, w2, (k1.mono (Multiset.le_add_left _ _)).trans k2, n2.trans n1⟩)
  refine ⟨m', e1, ?_, ?_, e4⟩
  · simpa [tableBlocks] using e2
  · simpa [tableBlocks] using e3

theorem freeStepsUp_spec {m : SeriesMemory} {M : Multiset Nat} {d k : Nat} {T : List (Nat × List MemPtr)} {rest : List MemPtr} (h : m.Within (tableBlocks T + ({d} + M)))
    (e : m.blocks d = some (.pointers (stepPtrs T ++ rest))) (g : TableGood m k T) :
    ∃ m', loop T.length (fun t (m : SeriesMemory) => m.freeStep (.block d) k t) m = ok m' ∧ m'.Within ({d} + M) ∧ m.Keeps m' ({d} + M) ∧ m'.next = m.next := by
  obtain ⟨m', e1, e2, e3, e4⟩ := loop_inv (n := T.length) (f := fun t (m : SeriesMemory) => m.freeStep (.block d) k t) (s := m)
    (fun i m' => m'.Within (tableBlocks (T.drop i) + ({d} + M)) ∧ m.Keeps m' (tableBlocks (T.drop i) + ({d} + M)) ∧ m'.next = m.next) ⟨by simpa using h, Keeps.refl _ _, rfl⟩ (by
      rintro i hi m1 ⟨w1, k1, n1⟩
      rw [List.drop_eq_getElem_cons hi, tableBlocks_cons, add_assoc] at w1 k1
      have hs := g T[i] (List.getElem_mem hi)
      obtain ⟨m2, a2, w2, k2, n2⟩ := freeStep_spec (t := i) (d := d) (l := stepPtrs T ++ rest) w1 (by rw [k1.same d (by simp), e]) (by
          rw [List.getElem?_append_left (by simpa [stepPtrs] using hi)]
          simp [stepPtrs, hi]) (by rw [k1.same _ (by simp [stepBlocks]), hs.1]) hs.2.2
      rw [hs.2.1] at a2
      exact ⟨m2, a2, w2, (k1.mono (Multiset.le_add_left _ _)).trans k2, n2.trans n1⟩)
  refine ⟨m', e1, ?_, ?_, e4⟩
  · simpa [tableBlocks] using e2
  · simpa [tableBlocks] using e3

theorem newSteps_spec {d : Nat} (cards : List Nat) (k : Nat) (T : List (Nat × List MemPtr)) {m : SeriesMemory} {M : Multiset Nat} (h : m.Within (tableBlocks T + ({d} + M)))
    (e : m.blocks d = some (.pointers (stepPtrs T ++ List.replicate k .null))) (g : TableGood m cards.length T) :
    (∃ m', newSteps (.block d) cards k T.length m = ok (false, m') ∧ m'.Within ({d} + M) ∧ m.Keeps m' M ∧ ∃ i, m.fails i = true ∧ m.next ≤ i ∧ i < m.next + k * (1 + cards.length)) ∨
    (∃ m' T', newSteps (.block d) cards k T.length m = ok (true, m') ∧ T'.length = k ∧ m'.Within (tableBlocks (T ++ T') + ({d} + M)) ∧
      m'.blocks d = some (.pointers (stepPtrs (T ++ T'))) ∧ TableGood m' cards.length (T ++ T') ∧ m.Keeps m' M ∧ m'.next = m.next + k * (1 + cards.length)) := by
  induction k generalizing T m with
  | zero => exact Or.inr ⟨m, [], rfl, rfl, by simpa using h, by simpa using e, by simpa using g, Keeps.refl _ _, by simp⟩
  | succ k ih =>
    unfold newSteps
    have hM : M ≤ tableBlocks T + ({d} + M) := (Multiset.le_add_left M {d}).trans (Multiset.le_add_left _ _)
    have hlen : (stepPtrs T).length = T.length := by simp [stepPtrs]
    rcases h.any (.pointers (List.replicate cards.length .null)) with ⟨m1, a1, f1, w1, k1, n1⟩ | ⟨m1, a1, f1, w1, b1, k1, n1⟩
    · left
      rw [a1]
      have ea : m1.blocks d = some (.pointers (stepPtrs T ++ List.replicate (k + 1) .null)) := by rw [k1.same d (by simp), e]
      obtain ⟨m2, a2, w2, b2, k2, n2⟩ := Within.setEntry (M := tableBlocks T + M) (w1.as (by abel)) ea (i := T.length) (by simp [hlen]) .null
      rw [← hlen, set_replicate_null, List.append_assoc] at b2
      have g2 : TableGood m2 cards.length T := (g.keep (k1.same.mono (Multiset.le_add_right _ _))).keep (k2.same.mono (Multiset.le_add_right _ _))
      obtain ⟨m3, a3, w3, k3, n3⟩ := freeStepsDown_spec (M := M) (w2.as (by abel)) b2 g2
      refine ⟨m3, ?_, w3, ?_, ⟨_, f1, by rw [Nat.succ_mul]; omega⟩⟩
      · simp only [a2, ok_bind, beq_self_eq_true, if_true, a3]
      · exact (((k1.mono hM).then k2 (Multiset.le_add_left _ _))).then k3 (Multiset.le_add_left _ _)
    · rw [a1]
      have ea : m1.blocks d = some (.pointers (stepPtrs T ++ List.replicate (k + 1) .null)) := by rw [k1.same d (by simp), e]
      obtain ⟨m2, a2, w2, b2, k2, n2⟩ := Within.setEntry (M := {m.next} + (tableBlocks T + M)) (w1.as (by abel)) ea (i := T.length) (by simp [hlen]) (.block m.next)
      rw [← hlen, set_replicate_null] at b2
      have kM : m.Keeps m2 M := (k1.mono hM).then k2 ((Multiset.le_add_left M _).trans (Multiset.le_add_left _ _))
      have g2 : TableGood m2 cards.length T :=
        (g.keep (k1.same.mono (Multiset.le_add_right _ _))).keep (k2.same.mono ((Multiset.le_add_right (tableBlocks T) _).trans (Multiset.le_add_left _ _)))
      have c2 : m2.blocks m.next = some (.pointers ([] ++ List.replicate cards.length .null)) := by rw [k2.same _ (by simp), b1]; simp
      rcases newEntries_spec releases_down (a := m.next) cards [] (by simp) (M := {d} + (tableBlocks T + M)) (w2.as (by simp only [ptrBlocks_nil]; abel)) c2 with
        ⟨m3, x, a3, w3, k3, b3, f3⟩ | ⟨m3, l', a3, c3, j3, w3, b3, k3, n3⟩
      · left
        obtain ⟨m4, a4, w4, k4, n4⟩ := Within.release (q := .block m.next) (by simp) w3
        have e4 : m4.blocks d = some (.pointers (stepPtrs T ++ ([.block m.next] ++ List.replicate k .null))) := by
          rw [k4.same d (by simp), k3.same d (by simp), b2, List.append_assoc]
        have hTs : tableBlocks T ≤ {d} + (tableBlocks T + M) := (Multiset.le_add_right _ M).trans (Multiset.le_add_left _ _)
        have g4 : TableGood m4 cards.length T := (g2.keep (k3.same.mono hTs)).keep (k4.same.mono hTs)
        obtain ⟨m5, a5, w5, k5, n5⟩ := freeStepsDown_spec (M := M) (w4.as (by abel)) e4 g4
        have hMs : M ≤ {d} + (tableBlocks T + M) := (Multiset.le_add_left M _).trans (Multiset.le_add_left _ _)
        refine ⟨m5, ?_, w5, ((kM.then k3 hMs).then k4 hMs).then k5 (Multiset.le_add_left _ _), ?_⟩
        · rw [List.length_nil] at a3
          simp [a2, a3, a4, a5]
        · obtain ⟨i, hi, li⟩ := f3
          exact ⟨i, by rw [← kM.fails]; exact hi, by rw [n2, n1] at li; rw [Nat.succ_mul]; omega⟩
      · have hTs : tableBlocks T ≤ {d} + (tableBlocks T + M) := (Multiset.le_add_right _ M).trans (Multiset.le_add_left _ _)
        have hMs : M ≤ {d} + (tableBlocks T + M) := (Multiset.le_add_left M _).trans (Multiset.le_add_left _ _)
        rw [List.nil_append] at w3 b3
        have w3' : m3.Within (tableBlocks (T ++ [(m.next, l')]) + ({d} + M)) := w3.as (by
          rw [tableBlocks_append]
          simp only [tableBlocks, stepBlocks, List.map_cons, List.map_nil, List.sum_cons, List.sum_nil]
          abel)
        have e3 : m3.blocks d = some (.pointers (stepPtrs (T ++ [(m.next, l')]) ++ List.replicate k .null)) := by
          rw [k3.same d (by simp), b2]
          simp [stepPtrs]
        have g3 : TableGood m3 cards.length (T ++ [(m.next, l')]) := by
          intro s hs
          rcases List.mem_append.1 hs with hs | hs
          · exact (g2.keep (k3.same.mono hTs)) s hs
          · rw [List.mem_singleton.1 hs]
            exact ⟨b3, c3, j3⟩
        have hstep : ∀ x, newSteps (.block d) cards k (T.length + 1) m3 = x →
            (do
              let m' ← m1.setEntry (.block d) T.length (.block m.next)
              if (MemPtr.block m.next == .null) = true then do
                let m ← loopDown T.length (fun t (m : SeriesMemory) => m.freeStep (.block d) cards.length t) m'
                ok (false, m)
              else do
                let (good, m) ← newEntries freeDown (.block m.next) cards 0 m'
                if good then newSteps (.block d) cards k (T.length + 1) m
                else do
                  let m ← m.free (.block m1.next.pred)
                  let m ← loopDown T.length (fun t (m : SeriesMemory) => m.freeStep (.block d) cards.length t) m
                  ok (false, m)) = x := by
          rintro x rfl
          rw [List.length_nil] at a3
          rw [a2, ok_bind, if_neg (by simp), a3, ok_bind]
          rfl
        have hl : (T ++ [(m.next, l')]).length = T.length + 1 := by simp
        have hp : m1.next.pred = m.next := by rw [n1]; rfl
        rw [hp] at hstep
        have kM3 : m.Keeps m3 M := kM.then k3 hMs
        rcases ih (T ++ [(m.next, l')]) w3' e3 g3 with ⟨m4, a4, w4, k4, kf, f4, l4⟩ | ⟨m4, T', a4, c4, w4, b4, g4, k4, n4⟩
        · rw [hl] at a4
          exact Or.inl ⟨m4, hstep _ a4, w4, kM3.trans k4, kf, by rw [← kM3.fails]; exact f4, by rw [n3, n2, n1] at l4; rw [Nat.succ_mul]; omega⟩
        · rw [hl] at a4
          refine Or.inr ⟨m4, (m.next, l') :: T', hstep _ a4, by simp [c4], w4.as (by simp), by rw [b4]; simp, by simpa using g4, kM3.trans k4, ?_⟩
          rw [n4, n3, n2, n1, Nat.succ_mul]
          omega

/-! ### results -/

/-- results: the addresses of the structure, of the array of variables and of the array of steps, and the steps -/
structure REntry where
  addr : Nat
  askedAt : Nat
  dataAt : Nat
  table : List (Nat × List MemPtr)

/-- their blocks -/
def REntry.blocks (e : REntry) : Multiset Nat := {e.addr} + ({e.askedAt} + ({e.dataAt} + tableBlocks e.table))

/-- They are results for `k` variables and `n` steps. -/
structure REntry.Good (e : REntry) (m : SeriesMemory) (k n : Nat) : Prop where
  cell : m.blocks e.addr = some (.results { vars := k, length := n, asked := .block e.askedAt, data := .block e.dataAt })
  data : m.blocks e.dataAt = some (.pointers (stepPtrs e.table))
  table : TableGood m k e.table
  length : e.table.length = n

theorem REntry.Good.keep {e : REntry} {m m' : SeriesMemory} {k n : Nat} (h : e.Good m k n) (hs : m.SameOn m' e.blocks) : e.Good m' k n := by
  refine ⟨by rw [hs _ (by simp [REntry.blocks]), h.cell], by rw [hs _ (by simp [REntry.blocks]), h.data], h.table.keep (hs.mono ?_), h.length⟩
  unfold REntry.blocks
  exact ((Multiset.le_add_left _ _).trans (Multiset.le_add_left _ _)).trans (Multiset.le_add_left _ _)

theorem ptrBlocks_card {l : List MemPtr} (h : ∀ q ∈ l, ∃ b, q = .block b) : (ptrBlocks l).card = l.length := by
  induction l with
  | nil => rfl
  | cons q l ih =>
    obtain ⟨b, rfl⟩ := h q (by simp)
    rw [ptrBlocks_cons, Multiset.card_add, ih (fun q hq => h q (by simp [hq]))]
    simp [MemPtr.blocks]
    omega

theorem tableBlocks_card {m : SeriesMemory} {k : Nat} {T : List (Nat × List MemPtr)} (h : TableGood m k T) : (tableBlocks T).card = T.length * (1 + k) := by
  induction T with
  | nil => simp [tableBlocks]
  | cons s T ih =>
    have hs := h s (by simp)
    rw [tableBlocks_cons, Multiset.card_add, ih (fun s hs => h s (by simp [hs])), stepBlocks, Multiset.card_add, ptrBlocks_card hs.2.2, hs.2.1]
    simp only [Multiset.card_singleton, List.length_cons]
    rw [Nat.succ_mul]
    omega

theorem REntry.Good.count {e : REntry} {m : SeriesMemory} {k n : Nat} (h : e.Good m k n) : e.blocks.card = (SeriesRecord.results k n).blocks := by
  unfold REntry.blocks SeriesRecord.blocks
  simp only [Multiset.card_add, Multiset.card_singleton, tableBlocks_card h.table, h.length]
  omega

theorem freeResults_spec {m : SeriesMemory} {M : Multiset Nat} {e : REntry} {k n : Nat} (h : m.Within (e.blocks + M)) (he : e.Good m k n) :
    ∃ m', m.freeResults (.block e.addr) = ok m' ∧ m'.Within M ∧ m.Keeps m' M ∧ m'.next = m.next := by
  unfold REntry.blocks at h
  obtain ⟨m1, a1, w1, k1, n1⟩ := freeStepsUp_spec (M := {e.askedAt} + ({e.addr} + M)) (d := e.dataAt) (T := e.table) (rest := []) (h.as (by abel)) (by simpa using he.data) he.table
  obtain ⟨m2, a2, w2, k2, n2⟩ := Within.release (q := .block e.dataAt) (by simp) w1
  obtain ⟨m3, a3, w3, k3, n3⟩ := Within.release (q := .block e.askedAt) (by simp) w2
  obtain ⟨m4, a4, w4, k4, n4⟩ := Within.release (q := .block e.addr) (by simp) w3
  refine ⟨m4, ?_, w4, ?_, by omega⟩
  · unfold Store.freeResults
    rw [he.length] at a1
    simp only [MemPtr.isNull, ok_bind, if_false, Bool.false_eq_true, resultsAt_eq he.cell, a1, a2, a3, a4]
  · have h1 : M ≤ {e.addr} + M := Multiset.le_add_left _ _
    have h2 : M ≤ {e.askedAt} + ({e.addr} + M) := h1.trans (Multiset.le_add_left _ _)
    exact (((k1.mono (h2.trans (Multiset.le_add_left _ _))).then k2 h2).then k3 h1).trans k4

/-- the array of cardinalities -/
def ifaceBlocks (interface : Nat) : Nat := if 0 < interface then 1 else 0

theorem resultsMemory_spec {m : SeriesMemory} {M : Multiset Nat} (h : m.Within M) (interface : Nat) (cards : List Nat) (length : Nat) :
    (∃ m', m.newResults interface cards length = ok (.null, .null, m') ∧ m'.Within M ∧ m.Keeps m' M ∧
      ∃ k, m.fails k = true ∧ m.next ≤ k ∧ k < m.next + (ifaceBlocks interface + 3 + length * (1 + cards.length))) ∨
    (∃ (m' : SeriesMemory) (e : REntry) (c : MemPtr), m.newResults interface cards length = ok (.block e.addr, c, m') ∧ c ≠ .junk ∧ m'.Within (e.blocks + (c.blocks + M)) ∧ e.Good m' cards.length length ∧
      m.Keeps m' M ∧ m'.next = m.next + (ifaceBlocks interface + 3 + length * (1 + cards.length))) := by
  have first : (∃ m', (if 0 < interface then m.alloc (.numbers interface) else (.null, m)) = (MemPtr.null, m') ∧ 0 < interface ∧ m'.Within M ∧ m.Keeps m' M ∧ m.fails m.next = true) ∨
      (∃ c m', (if 0 < interface then m.alloc (.numbers interface) else (.null, m)) = (c, m') ∧ (0 < interface → c ≠ .null) ∧ c ≠ .junk ∧ m'.Within (c.blocks + M) ∧ m.Keeps m' M ∧
        m'.next = m.next + ifaceBlocks interface) := by
    by_cases hi : 0 < interface
    · rw [if_pos hi]
      rcases h.any (.numbers interface) with ⟨m1, a1, f1, w1, k1, n1⟩ | ⟨m1, a1, f1, w1, b1, k1, n1⟩
      · exact Or.inl ⟨m1, a1, hi, w1, k1, f1⟩
      · exact Or.inr ⟨_, m1, a1, by simp, by simp, w1, k1, by simp [ifaceBlocks, hi, n1]⟩
    · rw [if_neg hi]
      exact Or.inr ⟨.null, m, rfl, fun h => absurd h hi, by simp, h.as (by simp [MemPtr.blocks]), Keeps.refl _ _, by simp [ifaceBlocks, hi]⟩
  unfold Store.newResults
  rcases first with ⟨m1, a1, hi, w1, k1, f1⟩ | ⟨c, m1, a1, hc, hj, w1, k1, n1⟩
  · left
    rw [a1]
    exact ⟨m1, by simp [hi], w1, k1, _, f1, by omega⟩
  · rw [a1]
    have hcond : ¬ (decide (0 < interface) && c == .null) = true := by
      intro hh
      rw [Bool.and_eq_true, decide_eq_true_eq, beq_iff_eq] at hh
      exact hc hh.1 hh.2
    simp only [if_neg hcond]
    have hM1 : M ≤ c.blocks + M := Multiset.le_add_left _ _
    rcases w1.any (.results { vars := 0, length := 0, asked := .junk, data := .junk }) with ⟨m2, a2, f2, w2, k2, n2⟩ | ⟨m2, a2, f2, w2, b2, k2, n2⟩
    · left
      obtain ⟨m3, a3, w3, k3, n3⟩ := w2.release hj
      refine ⟨m3, ?_, w3, (k1.then k2 hM1).trans k3, ⟨_, by rw [← k1.fails]; exact f2, by omega⟩⟩
      rw [a2]
      simp [a3]
    · rw [a2]
      simp only [show (MemPtr.block m1.next == MemPtr.null) = false from rfl, Bool.false_eq_true, if_false]
      have K2 : m.Keeps m2 M := k1.then k2 hM1
      have hM2 : M ≤ {m1.next} + (c.blocks + M) := hM1.trans (Multiset.le_add_left _ _)
      rcases w2.any (.references cards.length) with ⟨m3, a3, f3, w3, k3, n3⟩ | ⟨m3, a3, f3, w3, b3, k3, n3⟩
      · left
        obtain ⟨m4, a4, w4, k4, n4⟩ := Within.release (q := .block m1.next) (by simp) w3
        obtain ⟨m5, a5, w5, k5, n5⟩ := w4.release hj
        refine ⟨m5, ?_, w5, ((K2.then k3 hM2).then k4 hM1).trans k5, ⟨_, by rw [← K2.fails]; exact f3, by omega⟩⟩
        rw [a3]
        simp [a4, a5]
      · rw [a3]
        simp only [show (MemPtr.block m2.next == MemPtr.null) = false from rfl, Bool.false_eq_true, if_false]
        have K3 : m.Keeps m3 M := K2.then k3 hM2
        have hM3 : M ≤ {m2.next} + ({m1.next} + (c.blocks + M)) := hM2.trans (Multiset.le_add_left _ _)
        rcases w3.any (.pointers (List.replicate length .null)) with ⟨m4, a4, f4, w4, k4, n4⟩ | ⟨m4, a4, f4, w4, b4, k4, n4⟩
        · left
          rw [a4]
          obtain ⟨m5, a5, w5, b5, k5, n5⟩ := Within.write (a := m1.next) (M := {m2.next} + (c.blocks + M)) (w4.as (by abel))
            (.results { vars := cards.length, length := length, asked := .block m2.next, data := .null })
          obtain ⟨m6, a6, w6, k6, n6⟩ := Within.release (q := .block m2.next) (M := {m1.next} + (c.blocks + M)) (by simp) (w5.as (by simp only [MemPtr.blocks]; abel))
          obtain ⟨m7, a7, w7, k7, n7⟩ := Within.release (q := .block m1.next) (by simp) w6
          obtain ⟨m8, a8, w8, k8, n8⟩ := w7.release hj
          refine ⟨m8, ?_, w8, (((((K3.then k4 hM3).then k5 (hM1.trans (Multiset.le_add_left _ _))).then k6 hM2).then k7 hM1)).trans k8, ⟨_, by rw [← K3.fails]; exact f4, by omega⟩⟩
          simp [a5, a6, a7, a8]
        · rw [a4]
          have K4 : m.Keeps m4 M := K3.then k4 hM3
          obtain ⟨m5, a5, w5, b5, k5, n5⟩ := Within.write (a := m1.next) (M := {m3.next} + ({m2.next} + (c.blocks + M))) (w4.as (by abel))
            (.results { vars := cards.length, length := length, asked := .block m2.next, data := .block m3.next })
          have K5 : m.Keeps m5 M := K4.then k5 ((hM1.trans (Multiset.le_add_left _ _)).trans (Multiset.le_add_left _ _))
          have e5 : m5.blocks m3.next = some (.pointers (stepPtrs [] ++ List.replicate length .null)) := by
            rw [k5.same _ (by simp), b4]
            simp [stepPtrs]
          rcases newSteps_spec (d := m3.next) cards length [] (M := {m1.next} + ({m2.next} + (c.blocks + M)))
              (w5.as (by simp only [tableBlocks, List.map_nil, List.sum_nil]; abel)) e5 (by intro s hs; cases hs) with ⟨m6, a6, w6, k6, f6⟩ | ⟨m6, T, a6, c6, w6, b6, g6, k6, n6⟩
          · left
            obtain ⟨m7, a7, w7, k7, n7⟩ := Within.release (q := .block m3.next) (by simp) w6
            obtain ⟨m8, a8, w8, k8, n8⟩ := Within.release (q := .block m2.next) (M := {m1.next} + (c.blocks + M)) (by simp) (w7.as (by simp only [MemPtr.blocks]; abel))
            obtain ⟨m9, a9, w9, k9, n9⟩ := Within.release (q := .block m1.next) (by simp) w8
            obtain ⟨m10, a10, w10, k10, n10⟩ := w9.release hj
            have hM4 : M ≤ {m1.next} + ({m2.next} + (c.blocks + M)) := (hM1.trans (Multiset.le_add_left _ _)).trans (Multiset.le_add_left _ _)
            refine ⟨m10, ?_, w10, ((((K5.then k6 hM4).then k7 hM4).then k8 hM2).then k9 hM1).trans k10, ?_⟩
            · rw [List.length_nil] at a6
              simp [a5, a6, a7, a8, a9, a10]
            · obtain ⟨i, hi, li⟩ := f6
              exact ⟨i, by rw [← K5.fails]; exact hi, by rw [n5, n4, n3, n2, n1] at li; omega⟩
          · right
            have hM4 : M ≤ {m1.next} + ({m2.next} + (c.blocks + M)) := (hM1.trans (Multiset.le_add_left _ _)).trans (Multiset.le_add_left _ _)
            rw [List.nil_append] at w6 b6 g6
            refine ⟨m6, ⟨m1.next, m2.next, m3.next, T⟩, c, ?_, hj, w6.as (by simp only [REntry.blocks]; abel), ⟨?_, b6, g6, c6⟩, K5.then k6 hM4, by omega⟩
            · rw [List.length_nil] at a6
              simp [a5, a6]
            · rw [k6.same _ (by simp), b5]

/-! ### inference -/

theorem filterMemory_spec {m : SeriesMemory} {M : Multiset Nat} (h : m.Within M) (interface : Nat) (cards : List Nat) {ts : MemPtr} {c : SeriesCell} (hs : m.seriesAt ts = ok c) (good : Bool) :
    (∃ m', m.filter interface cards ts good = ok (.null, m') ∧ m'.Within M ∧ m.Keeps m' M ∧ (good = true → ∃ k, m.fails k = true)) ∨
    (good = true ∧ ∃ (m' : SeriesMemory) (e : REntry), m.filter interface cards ts good = ok (.block e.addr, m') ∧ m'.Within (e.blocks + M) ∧ e.Good m' cards.length c.length ∧
      m.Keeps m' M) := by
  unfold Store.filter
  rw [hs, ok_bind]
  rcases resultsMemory_spec h interface cards c.length with ⟨m1, a1, w1, k1, f1⟩ | ⟨m1, e, q, a1, hq, w1, g1, k1, n1⟩
  · left
    exact ⟨m1, by rw [a1, ok_bind]; rfl, w1, k1, fun _ => ⟨f1.choose, f1.choose_spec.1⟩⟩
  · have hM1 : M ≤ e.blocks + (q.blocks + M) := (Multiset.le_add_left _ _).trans (Multiset.le_add_left _ _)
    have alpha : ∃ p m2, m1.alloc .potential = (p, m2) ∧ p ≠ .junk ∧ m2.Within (p.blocks + (e.blocks + (q.blocks + M))) ∧ m1.Keeps m2 (e.blocks + (q.blocks + M)) := by
      rcases w1.any .potential with ⟨m2, a2, f2, w2, k2, n2⟩ | ⟨m2, a2, f2, w2, b2, k2, n2⟩
      · exact ⟨_, m2, a2, by simp, w2.as (by simp [MemPtr.blocks]), k2⟩
      · exact ⟨_, m2, a2, by simp, w2, k2⟩
    obtain ⟨p, m2, a2, hp, w2, k2⟩ := alpha
    obtain ⟨m3, a3, w3, k3, n3⟩ := Within.release (M := p.blocks + (e.blocks + M)) hq (w2.as (by abel))
    have g3 : e.Good m3 cards.length c.length := (g1.keep (k2.same.mono (Multiset.le_add_right _ _))).keep
      (k3.same.mono ((Multiset.le_add_right _ M).trans (Multiset.le_add_left _ _)))
    have K3 : m.Keeps m3 M := (k1.then k2 hM1).then k3 ((Multiset.le_add_left _ _).trans (Multiset.le_add_left _ _))
    cases good with
    | true =>
      right
      obtain ⟨m4, a4, w4, k4, n4⟩ := w3.release hp
      refine ⟨rfl, m4, e, ?_, w4, g3.keep (k4.same.mono (Multiset.le_add_right _ _)), K3.then k4 (Multiset.le_add_left _ _)⟩
      simp [a1, a2, a3, a4]
    | false =>
      left
      obtain ⟨m4, a4, w4, k4, n4⟩ := freeResults_spec (M := p.blocks + M) (w3.as (by abel)) g3
      obtain ⟨m5, a5, w5, k5, n5⟩ := w4.release hp
      refine ⟨m5, ?_, w5, (K3.then k4 (Multiset.le_add_left _ _)).trans k5, by simp⟩
      simp [a1, a2, a3, a4, a5]

theorem newMessages_spec {m : SeriesMemory} {M : Multiset Nat} {a n : Nat} (h : m.Within ({a} + M)) (e : m.blocks a = some (.pointers (List.replicate n .null))) :
    ∃ m' l, m.newMessages (.block a) n = ok m' ∧ l.length = n ∧ (∀ q ∈ l, q ≠ .junk) ∧ m'.Within (ptrBlocks l + ({a} + M)) ∧ m'.blocks a = some (.pointers l) ∧ m.Keeps m' M := by
  obtain ⟨m', e1, l, e2, e3, e4, e5, e6⟩ := loop_inv (n := n) (f := fun t (m : SeriesMemory) => do
      let (p, m) := m.alloc .potential
      m.setEntry (.block a) t p) (s := m)
    (fun i m' => ∃ l, l.length = i ∧ (∀ q ∈ l, q ≠ MemPtr.junk) ∧ m'.Within (ptrBlocks l + ({a} + M)) ∧ m'.blocks a = some (.pointers (l ++ List.replicate (n - i) .null)) ∧ m.Keeps m' M)
    ⟨[], rfl, by simp, h.as (by simp [ptrBlocks_nil]), by simpa using e, Keeps.refl _ _⟩ (by
      rintro i hi m1 ⟨l, rfl, hj, w1, b1, k1⟩
      have hn : n - l.length = n - (l.length + 1) + 1 := by omega
      rw [hn] at b1
      have hM : M ≤ ptrBlocks l + ({a} + M) := (Multiset.le_add_left _ _).trans (Multiset.le_add_left _ _)
      have alpha : ∃ p m2, m1.alloc .potential = (p, m2) ∧ p ≠ .junk ∧ m2.Within (p.blocks + (ptrBlocks l + ({a} + M))) ∧ m1.Keeps m2 (ptrBlocks l + ({a} + M)) := by
        rcases w1.any .potential with ⟨m2, a2, f2, w2, k2, n2⟩ | ⟨m2, a2, f2, w2, b2, k2, n2⟩
        · exact ⟨_, m2, a2, by simp, w2.as (by simp [MemPtr.blocks]), k2⟩
        · exact ⟨_, m2, a2, by simp, w2, k2⟩
      obtain ⟨p, m2, a2, hp, w2, k2⟩ := alpha
      have b2 : m2.blocks a = some (.pointers (l ++ List.replicate (n - (l.length + 1) + 1) .null)) := by rw [k2.same a (by simp), b1]
      obtain ⟨m3, a3, w3, b3, k3, n3⟩ := Within.setEntry (a := a) (M := p.blocks + (ptrBlocks l + M)) (w2.as (by abel)) b2 (i := l.length) (by simp) p
      rw [set_replicate_null] at b3
      refine ⟨m3, ?_, l ++ [p], by simp, ?_, w3.as (by rw [ptrBlocks_append, ptrBlocks_single]; abel), b3, (k1.then k2 hM).then k3 ((Multiset.le_add_left _ _).trans (Multiset.le_add_left _ _))⟩
      · simp only [a2, a3]
      · intro q hq
        rcases List.mem_append.1 hq with hq | hq
        · exact hj q hq
        · rw [List.mem_singleton.1 hq]; exact hp)
  exact ⟨m', l, e1, e2, e3, e4, by simpa using e5, e6⟩

theorem loop_first {σ : Type} (n : Nat) (f : Nat → σ → Res σ) (s : σ) (h : f 0 s = ub) : loop (n + 1) f s = ub := by
  induction n with
  | zero => rw [loop_succ]; exact h
  | succ n ih => rw [loop_succ, ih]; rfl

/-- the place of the allocation of the array of messages among those of smoothing -/
def messagesAt (interface vars length : Nat) : Nat := ifaceBlocks interface + 3 + length * (1 + vars)

theorem smoothMemory_spec {m : SeriesMemory} {M : Multiset Nat} (h : m.Within M) (interface : Nat) (cards : List Nat) {ts : MemPtr} {c : SeriesCell} (hs : m.seriesAt ts = ok c) (good : Bool)
    (hf : m.fails (m.next + messagesAt interface cards.length c.length) = false) :
    (∃ m', m.smooth interface cards ts good = ok (.null, m') ∧ m'.Within M ∧ m.Keeps m' M ∧ (good = true → ∃ k, m.fails k = true)) ∨
    (good = true ∧ ∃ (m' : SeriesMemory) (e : REntry), m.smooth interface cards ts good = ok (.block e.addr, m') ∧ m'.Within (e.blocks + M) ∧ e.Good m' cards.length c.length ∧
      m.Keeps m' M) := by
  unfold Store.smooth
  rw [hs, ok_bind]
  rcases resultsMemory_spec h interface cards c.length with ⟨m1, a1, w1, k1, f1⟩ | ⟨m1, e, q, a1, hq, w1, g1, k1, n1⟩
  · left
    exact ⟨m1, by rw [a1, ok_bind]; rfl, w1, k1, fun _ => ⟨f1.choose, f1.choose_spec.1⟩⟩
  · have hM1 : M ≤ e.blocks + (q.blocks + M) := (Multiset.le_add_left _ _).trans (Multiset.le_add_left _ _)
    rcases w1.any (.pointers (List.replicate (c.length + 1) .null)) with ⟨m2, a2, f2, w2, k2, n2⟩ | ⟨m2, a2, f2, w2, b2, k2, n2⟩
    · exfalso
      rw [k1.fails, n1] at f2
      unfold messagesAt at hf
      rw [hf] at f2
      cases f2
    · obtain ⟨m3, l, a3, l3, j3, w3, b3, k3⟩ := newMessages_spec w2 b2
      obtain ⟨m4, a4, w4, k4, n4⟩ := Within.release (M := ptrBlocks l + ({m1.next} + (e.blocks + M))) hq (w3.as (by abel))
      have he : e.blocks ≤ ptrBlocks l + ({m1.next} + (e.blocks + M)) := ((Multiset.le_add_right _ M).trans (Multiset.le_add_left _ _)).trans (Multiset.le_add_left _ _)
      have hM4 : M ≤ ptrBlocks l + ({m1.next} + (e.blocks + M)) := ((Multiset.le_add_left M _).trans (Multiset.le_add_left _ _)).trans (Multiset.le_add_left _ _)
      have g4 : e.Good m4 cards.length c.length := ((g1.keep (k2.same.mono (Multiset.le_add_right _ _))).keep (k3.same.mono (Multiset.le_add_right _ _))).keep (k4.same.mono he)
      have K4 : m.Keeps m4 M := ((k1.then k2 hM1).then k3 hM1).then k4 hM4
      have b4 : m4.blocks m1.next = some (.pointers (l ++ [])) := by rw [k4.same _ (by simp), b3, List.append_nil]
      cases good with
      | true =>
        right
        obtain ⟨m5, a5, w5, k5, n5⟩ := freeUp_spec w4 b4 j3
        obtain ⟨m6, a6, w6, k6, n6⟩ := Within.release (q := .block m1.next) (by simp) w5
        refine ⟨rfl, m6, e, ?_, w6, ?_, ?_⟩
        · rw [l3] at a5
          simp [a1, a2, a3, a4, a5, a6]
        · exact (g4.keep (k5.same.mono ((Multiset.le_add_right _ M).trans (Multiset.le_add_left _ _)))).keep (k6.same.mono (Multiset.le_add_right _ _))
        · exact (K4.then k5 ((Multiset.le_add_left M _).trans (Multiset.le_add_left _ _))).then k6 (Multiset.le_add_left _ _)
      | false =>
        left
        obtain ⟨m5, a5, w5, k5, n5⟩ := freeResults_spec (M := ptrBlocks l + ({m1.next} + M)) (w4.as (by abel)) g4
        have b5 : m5.blocks m1.next = some (.pointers (l ++ [])) := by rw [k5.same _ (by simp), b4]
        obtain ⟨m6, a6, w6, k6, n6⟩ := freeUp_spec w5 b5 j3
        obtain ⟨m7, a7, w7, k7, n7⟩ := Within.release (q := .block m1.next) (by simp) w6
        refine ⟨m7, ?_, w7, ((K4.then k5 ((Multiset.le_add_left M _).trans (Multiset.le_add_left _ _))).then k6 (Multiset.le_add_left _ _)).trans k7, by simp⟩
        rw [l3] at a6
        simp [a1, a2, a3, a4, a5, a6, a7]

theorem smooth_undefined {m : SeriesMemory} {M : Multiset Nat} (h : m.Within M) (interface : Nat) (cards : List Nat) {ts : MemPtr} {c : SeriesCell} (hs : m.seriesAt ts = ok c) (good : Bool)
    (hf : m.fails (m.next + messagesAt interface cards.length c.length) = true) :
    m.smooth interface cards ts good = ub ∨ ∃ m', m.smooth interface cards ts good = ok (.null, m') ∧ m'.Within M ∧ m.Keeps m' M ∧
      ∃ k, m.fails k = true ∧ m.next ≤ k ∧ k < m.next + messagesAt interface cards.length c.length := by
  unfold Store.smooth
  rw [hs, ok_bind]
  rcases resultsMemory_spec h interface cards c.length with ⟨m1, a1, w1, k1, f1⟩ | ⟨m1, e, q, a1, hq, w1, g1, k1, n1⟩
  · right
    exact ⟨m1, by rw [a1, ok_bind]; rfl, w1, k1, f1⟩
  · left
    rcases w1.any (.pointers (List.replicate (c.length + 1) .null)) with ⟨m2, a2, f2, w2, k2, n2⟩ | ⟨m2, a2, f2, w2, b2, k2, n2⟩
    · have hub : m2.newMessages .null (c.length + 1) = ub := by
        unfold newMessages
        refine loop_first _ _ _ ?_
        unfold Store.alloc
        split <;> rfl
      simp [a1, a2, hub]
    · exfalso
      rw [k1.fails, n1] at f2
      unfold messagesAt at hf
      rw [hf] at f2
      cases f2

/-! ### time series -/

/-- a time series: the addresses of the structure and of the array of hidden variables, the pointers to the array of observed variables and to that of the steps, and the steps -/
structure SEntry where
  addr : Nat
  hiddenAt : Nat
  observed : MemPtr
  data : MemPtr
  rows : List MemPtr

/-- its blocks -/
def SEntry.blocks (e : SEntry) : Multiset Nat := {e.addr} + ({e.hiddenAt} + (e.observed.blocks + (e.data.blocks + ptrBlocks e.rows)))

/-- It is a time series of length `n`; `d` says whether it has data. -/
structure SEntry.Good (e : SEntry) (m : SeriesMemory) (n : Nat) (d : Bool) : Prop where
  cell : m.blocks e.addr = some (.series { length := n, hidden := .block e.hiddenAt, observed := e.observed, data := e.data })
  data : d = true → (∃ o, e.observed = .block o) ∧ (∃ a, e.data = .block a ∧ m.blocks a = some (.pointers e.rows)) ∧ e.rows.length = n ∧ ∀ q ∈ e.rows, ∃ b, q = .block b
  none : d = false → e.observed = .null ∧ e.data = .null ∧ e.rows = []

theorem SEntry.Good.keep {e : SEntry} {m m' : SeriesMemory} {n : Nat} {d : Bool} (h : e.Good m n d) (hs : m.SameOn m' e.blocks) : e.Good m' n d := by
  refine ⟨by rw [hs _ (by simp [SEntry.blocks]), h.cell], fun hd => ?_, h.none⟩
  obtain ⟨h1, ⟨a, h2, h3⟩, h4⟩ := h.data hd
  exact ⟨h1, ⟨a, h2, by rw [hs _ (by simp [SEntry.blocks, h2, MemPtr.blocks]), h3]⟩, h4⟩

theorem SEntry.Good.count {e : SEntry} {m : SeriesMemory} {n : Nat} {d : Bool} (h : e.Good m n d) : e.blocks.card = (SeriesRecord.series n d).blocks := by
  unfold SEntry.blocks SeriesRecord.blocks
  cases d with
  | true =>
    obtain ⟨⟨o, ho⟩, ⟨a, ha, _⟩, hn, hb⟩ := h.data rfl
    simp only [Multiset.card_add, Multiset.card_singleton, ho, ha, MemPtr.blocks, ptrBlocks_card hb, hn, if_true]
    omega
  | false =>
    obtain ⟨h1, h2, h3⟩ := h.none rfl
    simp [h1, h2, h3, MemPtr.blocks, ptrBlocks_nil]

theorem freeSeries_spec {m : SeriesMemory} {M : Multiset Nat} {e : SEntry} {n : Nat} {d : Bool} (h : m.Within (e.blocks + M)) (he : e.Good m n d) :
    ∃ m', m.freeSeries (.block e.addr) = ok m' ∧ m'.Within M ∧ m.Keeps m' M := by
  unfold SEntry.blocks at h
  have mid : ∃ m1, ((e.data = .null ∧ m1 = m) ∨ ∃ a m0, e.data = .block a ∧ m.freeUp (.block a) n = ok m0 ∧ m0.free (.block a) = ok m1) ∧
      m1.Within ({e.addr} + ({e.hiddenAt} + (e.observed.blocks + M))) ∧ m.Keeps m1 M ∧ e.observed ≠ .junk := by
    cases d with
    | true =>
      obtain ⟨⟨o, ho⟩, ⟨a, ha, hb⟩, hn, hj⟩ := he.data rfl
      rw [ha] at h
      obtain ⟨m1, a1, w1, k1, n1⟩ := freeUp_spec (a := a) (l := e.rows) (rest := []) (M := {e.addr} + ({e.hiddenAt} + (e.observed.blocks + M)))
        (h.as (by simp only [MemPtr.blocks]; abel)) (by simpa using hb) (by
          intro q hq
          obtain ⟨b, rfl⟩ := hj q hq
          simp)
      obtain ⟨m2, a2, w2, k2, n2⟩ := Within.release (q := .block a) (by simp) w1
      have hM : M ≤ {e.addr} + ({e.hiddenAt} + (e.observed.blocks + M)) := ((Multiset.le_add_left M _).trans (Multiset.le_add_left _ _)).trans (Multiset.le_add_left _ _)
      rw [hn] at a1
      exact ⟨m2, Or.inr ⟨a, m1, ha, a1, a2⟩, w2, ((k1.mono (Multiset.le_add_left _ _)).trans k2).mono hM, by rw [ho]; simp⟩
    | false =>
      obtain ⟨h1, h2, h3⟩ := he.none rfl
      refine ⟨m, Or.inl ⟨h2, rfl⟩, h.as ?_, Keeps.refl _ _, by rw [h1]; simp⟩
      rw [h2, h3, ptrBlocks_nil]
      simp only [MemPtr.blocks]
      abel
  obtain ⟨m1, a1, w1, k1, j1⟩ := mid
  obtain ⟨m2, a2, w2, k2, n2⟩ := Within.release (q := .block e.hiddenAt) (M := e.observed.blocks + ({e.addr} + M)) (by simp) (w1.as (by simp only [MemPtr.blocks]; abel))
  obtain ⟨m3, a3, w3, k3, n3⟩ := w2.release j1
  obtain ⟨m4, a4, w4, k4, n4⟩ := Within.release (q := .block e.addr) (by simp) w3
  have h1 : M ≤ {e.addr} + M := Multiset.le_add_left _ _
  refine ⟨m4, ?_, w4, ((k1.then k2 (h1.trans (Multiset.le_add_left _ _))).then k3 h1).trans k4⟩
  unfold Store.freeSeries
  simp only [MemPtr.isNull, ok_bind, if_false, Bool.false_eq_true, seriesAt_eq he.cell]
  rcases a1 with ⟨hd, rfl⟩ | ⟨a, m0, hd, hu, hf⟩
  · simp [hd, a2, a3, a4]
  · simp [hd, hu, hf, a2, a3, a4]

/-- one more allocation, whether or not there is memory -/
theorem Store.Within.more {m : SeriesMemory} {M : Multiset Nat} (h : m.Within M) (b : SeriesBlock) :
    ∃ p m', m.alloc b = (p, m') ∧ p ≠ .junk ∧ m'.Within (p.blocks + M) ∧ m.Keeps m' M ∧ (p = .null → ∃ k, m.fails k = true) ∧ ∀ a, p = .block a → m'.blocks a = some b := by
  rcases h.any b with ⟨m2, a2, f2, w2, k2, n2⟩ | ⟨m2, a2, f2, w2, b2, k2, n2⟩
  · exact ⟨_, m2, a2, by simp, w2.as (by simp [MemPtr.blocks]), k2, fun _ => ⟨_, f2⟩, by simp⟩
  · refine ⟨_, m2, a2, by simp, w2, k2, by simp, ?_⟩
    rintro a ⟨⟩
    exact b2

theorem ptr_cases {p : MemPtr} (h : p ≠ .junk) : p = .null ∨ ∃ a, p = .block a := by
  cases p with
  | junk => exact absurd rfl h
  | null => exact Or.inl rfl
  | block a => exact Or.inr ⟨a, rfl⟩

theorem release_four {m : SeriesMemory} {M : Multiset Nat} {d o x : MemPtr} {p : Nat} (hd : d ≠ .junk) (ho : o ≠ .junk) (hx : x ≠ .junk)
    (h : m.Within (d.blocks + (o.blocks + (x.blocks + ({p} + M))))) :
    ∃ m1 m2 m3 m4, m.free d = ok m1 ∧ m1.free o = ok m2 ∧ m2.free x = ok m3 ∧ m3.free (.block p) = ok m4 ∧ m4.Within M ∧ m.Keeps m4 M := by
  obtain ⟨m1, a1, w1, k1, n1⟩ := h.release hd
  obtain ⟨m2, a2, w2, k2, n2⟩ := w1.release ho
  obtain ⟨m3, a3, w3, k3, n3⟩ := w2.release hx
  obtain ⟨m4, a4, w4, k4, n4⟩ := Within.release (q := .block p) (by simp) w3
  have h1 : M ≤ {p} + M := Multiset.le_add_left _ _
  have h2 : M ≤ x.blocks + ({p} + M) := h1.trans (Multiset.le_add_left _ _)
  exact ⟨m1, m2, m3, m4, a1, a2, a3, a4, w4, (((k1.mono (h2.trans (Multiset.le_add_left _ _))).then k2 h2).then k3 h1).trans k4⟩

theorem mostLikely_spec {m : SeriesMemory} {M : Multiset Nat} (h : m.Within M) (vars asked : Nat) {t : Nat} {c : SeriesCell} (ht : t ∈ M) (hs : m.blocks t = some (.series c)) :
    (∃ m', m.mostLikely vars asked (.block t) = ok (.null, m') ∧ m'.Within M ∧ m.Keeps m' M ∧ ∃ k, m.fails k = true) ∨
    (∃ (m' : SeriesMemory) (e : SEntry), m.mostLikely vars asked (.block t) = ok (.block e.addr, m') ∧ m'.Within (e.blocks + M) ∧ e.Good m' c.length true ∧ m.Keeps m' M) := by
  unfold Store.mostLikely
  rcases h.any (.series { length := 0, hidden := .junk, observed := .junk, data := .junk }) with ⟨m1, a1, f1, w1, k1, n1⟩ | ⟨m1, a1, f1, w1, b1, k1, n1⟩
  · left
    exact ⟨m1, by rw [a1]; rfl, w1, k1, _, f1⟩
  · rw [a1]
    simp only [show (MemPtr.block m.next == MemPtr.null) = false from rfl, Bool.false_eq_true, if_false]
    obtain ⟨x, m2, a2, j2, w2, k2, f2, b2⟩ := w1.more (.references (vars - asked))
    obtain ⟨o, m3, a3, j3, w3, k3, f3, b3⟩ := w2.more (.references asked)
    have hM1 : M ≤ {m.next} + M := Multiset.le_add_left _ _
    have hM2 : M ≤ x.blocks + ({m.next} + M) := hM1.trans (Multiset.le_add_left _ _)
    have hM3 : M ≤ o.blocks + (x.blocks + ({m.next} + M)) := hM2.trans (Multiset.le_add_left _ _)
    have K3 : m.Keeps m3 M := (k1.then k2 hM1).then k3 hM2
    have hc : m3.seriesAt (.block t) = ok c := seriesAt_eq (by rw [K3.same t ht, hs])
    obtain ⟨d, m4, a4, j4, w4, k4, f4, b4⟩ := w3.more (.pointers (List.replicate c.length .null))
    have K4 : m.Keeps m4 M := K3.then k4 hM3
    obtain ⟨m5, a5, w5, b5, k5, n5⟩ := Within.write (a := m.next) (M := d.blocks + (o.blocks + (x.blocks + M))) (w4.as (by abel))
      (.series { length := c.length, hidden := x, observed := o, data := d })
    have hMx : M ≤ x.blocks + M := Multiset.le_add_left _ _
    have hMo : M ≤ o.blocks + (x.blocks + M) := hMx.trans (Multiset.le_add_left _ _)
    have K5 : m.Keeps m5 M := K4.then k5 (hMo.trans (Multiset.le_add_left _ _))
    rw [a2]
    simp only []
    rw [a3]
    simp only [hc, ok_bind]
    rw [a4]
    simp only [a5, ok_bind]
    by_cases hn : (d == .null || o == .null || x == .null) = true
    · left
      obtain ⟨m6, m7, m8, m9, c1, c2, c3, c4, w9, k9⟩ := release_four j4 j3 j2 (w5.as (by abel : _ = d.blocks + (o.blocks + (x.blocks + ({m.next} + M)))))
      refine ⟨m9, ?_, w9, K5.trans k9, ?_⟩
      · rw [if_pos hn, c1, ok_bind, c2, ok_bind, c3, ok_bind, c4, ok_bind]
      · rw [Bool.or_eq_true, Bool.or_eq_true, beq_iff_eq, beq_iff_eq, beq_iff_eq] at hn
        have back : ∀ {m' : SeriesMemory} {N : Multiset Nat}, m.Keeps m' N → (∃ k, m'.fails k = true) → ∃ k, m.fails k = true := by
          rintro m' N hk ⟨i, hi⟩
          exact ⟨i, by rw [← hk.fails]; exact hi⟩
        rcases hn with (hn | hn) | hn
        · exact back K3 (f4 hn)
        · exact back (k1.then k2 hM1) (f3 hn)
        · exact back k1 (f2 hn)
    · rw [if_neg hn]
      rw [Bool.or_eq_true, Bool.or_eq_true, beq_iff_eq, beq_iff_eq, beq_iff_eq] at hn
      obtain ⟨da, rfl⟩ := (ptr_cases j4).resolve_left (fun e => hn (Or.inl (Or.inl e)))
      obtain ⟨oa, rfl⟩ := (ptr_cases j3).resolve_left (fun e => hn (Or.inl (Or.inr e)))
      obtain ⟨xa, rfl⟩ := (ptr_cases j2).resolve_left (fun e => hn (Or.inr e))
      simp only [MemPtr.blocks] at w5 k5 hMx hMo
      have e5 : m5.blocks da = some (.pointers ([] ++ List.replicate (List.replicate c.length asked).length .null)) := by
        rw [k5.same da (by simp), b4 da rfl]
        simp
      rcases newEntries_spec releases_down (a := da) (List.replicate c.length asked) [] (by simp) (M := {oa} + ({xa} + ({m.next} + M))) (w5.as (by simp only [ptrBlocks_nil]; abel)) e5 with
        ⟨m6, y, a6, w6, k6, b6, f6⟩ | ⟨m6, l, a6, l6, j6, w6, b6, k6, n6⟩
      · left
        obtain ⟨m7, m8, m9, m10, c1, c2, c3, c4, w9, k9⟩ := release_four (d := .block da) (o := .block oa) (x := .block xa) (p := m.next) (M := M) (by simp) (by simp) (by simp) w6
        refine ⟨m10, ?_, w9, (K5.then k6 ?_).trans k9, ?_⟩
        · rw [List.length_nil] at a6
          rw [a6, ok_bind]
          simp [c1, c2, c3, c4]
        · exact (((Multiset.le_add_left M _).trans (Multiset.le_add_left _ _)).trans (Multiset.le_add_left _ _))
        · obtain ⟨i, hi, _⟩ := f6
          exact ⟨i, by rw [← K5.fails]; exact hi⟩
      · right
        rw [List.nil_append] at w6 b6
        refine ⟨m6, ⟨m.next, xa, .block oa, .block da, l⟩, ?_, w6.as (by simp only [SEntry.blocks, MemPtr.blocks]; abel), ⟨?_, fun _ => ⟨⟨oa, rfl⟩, ⟨da, rfl, b6⟩, by simpa using l6, j6⟩, by simp⟩,
          K5.then k6 (((Multiset.le_add_left M _).trans (Multiset.le_add_left _ _)).trans (Multiset.le_add_left _ _))⟩
        · rw [List.length_nil] at a6
          rw [a6, ok_bind]
          rfl
        · rw [k6.same _ (by simp), b5]

end Nip
