import Verif.CliqueMemory
import Verif.Spec.CliqueMemory
import Verif.PotentialMemoryLemmas
import Verif.DataMemoryLemmas
import Verif.SortLemmas
import Verif.VariableLemmas
import Verif.SepsetLemmas

/-!
# Lemmas about the memory of new cliques and separators
-/

namespace Nip

open Res Spec Store

/-! ## Tables -/

/-- where a table is -/
structure TEntry where
  addr : Nat
  cardAt : Nat
  tempAt : Nat
  dataAt : Nat
  list : MemPtr

/-- its blocks -/
def TEntry.blocks (e : TEntry) : Multiset Nat := {e.addr} + ({e.cardAt} + ({e.tempAt} + ({e.dataAt} + e.list.blocks)))

/-- The table is in memory. -/
structure TEntry.Good (e : TEntry) (m : PotMemory) (cards : List Nat) : Prop where
  cell : m.blocks e.addr = some (.potential { dim := cards.length, size := cards.prod, card := .block e.cardAt, temp := .block e.tempAt, data := .block e.dataAt, properties := e.list })
  row : ∃ row, m.blocks e.cardAt = some (.ints row) ∧ row.take cards.length = cards
  data : m.blocks e.dataAt = some (.reals cards.prod)
  list : e.list = .null ∨ ∃ l, e.list = .block l ∧ m.blocks l = some (.list { length := 0, first := .null, last := .null })

theorem TEntry.Good.keep {e : TEntry} {m m' : PotMemory} {cards : List Nat} (h : e.Good m cards) (hs : m.SameOn m' e.blocks) : e.Good m' cards := by
  obtain ⟨row, r1, r2⟩ := h.row
  refine ⟨by rw [hs _ (by simp [TEntry.blocks])]; exact h.cell, ⟨row, by rw [hs _ (by simp [TEntry.blocks])]; exact r1, r2⟩, by rw [hs _ (by simp [TEntry.blocks])]; exact h.data, ?_⟩
  rcases h.list with h1 | ⟨l, h1, h2⟩
  · exact Or.inl h1
  · refine Or.inr ⟨l, h1, ?_⟩
    rw [hs _ (by simp [TEntry.blocks, h1, MemPtr.blocks])]
    exact h2

/-- Freeing a table. -/
theorem freeTable_spec {m : PotMemory} {M : Multiset Nat} {e : TEntry} {cards : List Nat} (h : m.Within (e.blocks + M)) (he : e.Good m cards) :
    ∃ m', m.freePotential (.block e.addr) = ok m' ∧ m'.Within M ∧ m.Keeps m' M := by
  have key : ∃ m1, m.freePairs e.list = ok m1 ∧ m1.Within ({e.cardAt} + ({e.tempAt} + ({e.dataAt} + ({e.addr} + M)))) ∧ m.Keeps m1 ({e.cardAt} + ({e.tempAt} + ({e.dataAt} + ({e.addr} + M)))) := by
    rcases he.list with h1 | ⟨l, h1, h2⟩
    · rw [h1]
      exact ⟨m, by simp [Store.freePairs, MemPtr.isNull], h.as (by unfold TEntry.blocks; rw [h1]; simp only [MemPtr.blocks, add_zero]; ac_rfl), Keeps.refl _ _⟩
    · rw [h1]
      have w0 : m.Within ({l} + ({e.cardAt} + ({e.tempAt} + ({e.dataAt} + ({e.addr} + M))))) := h.as (by unfold TEntry.blocks; rw [h1]; simp only [MemPtr.blocks]; ac_rfl)
      obtain ⟨m1, a1, w1, b1, k1, n1⟩ := w0.write (.list { length := 0, first := .null, last := .null })
      obtain ⟨m2, a2, w2, b2, k2, n2⟩ := w1.write (.list { length := 0, first := .null, last := .null })
      obtain ⟨m3, a3, w3, k3, n3⟩ := Within.release (q := .block l) (by simp) w2
      refine ⟨m3, ?_, w3, k1.trans (k2.trans k3)⟩
      unfold Store.freePairs
      rw [isNull_block, ok_bind]
      simp only [Bool.false_eq_true, if_false]
      rw [Store.listAt_eq h2, ok_bind]
      simp only [a1, ok_bind, Store.freeBack, isNull_null, if_true, a2]
      exact a3
  obtain ⟨m1, a1, w1, k1⟩ := key
  obtain ⟨m2, a2, w2, k2, n2⟩ := Within.release (q := .block e.cardAt) (by simp) w1
  obtain ⟨m3, a3, w3, k3, n3⟩ := Within.release (q := .block e.tempAt) (by simp) w2
  obtain ⟨m4, a4, w4, k4, n4⟩ := Within.release (q := .block e.dataAt) (by simp) w3
  obtain ⟨m5, a5, w5, k5, n5⟩ := Within.release (q := .block e.addr) (by simp) w4
  refine ⟨m5, ?_, w5, ?_⟩
  · unfold Store.freePotential
    rw [isNull_block, ok_bind]
    simp only [Bool.false_eq_true, if_false]
    rw [Store.potentialAt_eq he.cell, ok_bind]
    simp only [a1, ok_bind, a2, a3, a4, a5]
  · have l1 : M ≤ {e.addr} + M := Multiset.le_add_left _ _
    have l2 : M ≤ {e.dataAt} + ({e.addr} + M) := l1.trans (Multiset.le_add_left _ _)
    have l3 : M ≤ {e.tempAt} + ({e.dataAt} + ({e.addr} + M)) := l2.trans (Multiset.le_add_left _ _)
    have l4 : M ≤ {e.cardAt} + ({e.tempAt} + ({e.dataAt} + ({e.addr} + M))) := l3.trans (Multiset.le_add_left _ _)
    exact (k1.mono l4).trans ((k2.mono l3).trans ((k3.mono l2).trans ((k4.mono l1).trans k5)))

/-- what a creation of a table leaves -/
def TableMade (m : PotMemory) (M : Multiset Nat) (cards : List Nat) (r : Res (MemPtr × PotMemory)) : Fate × Nat → Prop
  | (.undefined, _) => r = ub
  | (.missing lost, k) => ∃ (m' : PotMemory) (L : Multiset Nat), r = ok (.null, m') ∧ m'.Within (L + M) ∧ L.card = lost ∧ m.Keeps m' M ∧ m'.next = k
  | (.made n, k) => ∃ (m' : PotMemory) (e : TEntry), r = ok (.block e.addr, m') ∧ m'.Within (e.blocks + M) ∧ e.blocks.card = n ∧ m.Keeps m' M ∧ m'.next = k ∧ e.Good m' cards

/-- A table is created, whichever allocations fail. -/
theorem newTable_spec {m : PotMemory} {M : Multiset Nat} (h : m.Within M) (cards : List Nat) :
    TableMade m M cards (m.newPotential cards (cards.length : Int) none) (tableFate m.fails m.next) := by
  have h0 : ¬ ((cards.length : Int) < 0) := by omega
  have hcl : ((cards.length : Int)).toNat = cards.length := by omega
  obtain ⟨row, r1, r2, r3⟩ := fillCard_spec (card := cards) (d := cards.length) (Nat.le_refl _)
  rw [List.take_length] at r1 r3
  generalize hz : List.replicate (if 0 < cards.length then cards.length else 1) (0 : Nat) = z at r1
  have hbn : ∀ x : Nat, (MemPtr.block x == MemPtr.null) = false := fun _ => rfl
  have hnn : (MemPtr.null == MemPtr.null) = true := rfl
  have hfn : ∀ x : PotMemory, x.free .null = ok x := fun _ => rfl
  unfold tableFate
  have le2 : ∀ {a : Nat}, M ≤ {a} + M := Multiset.le_add_left _ _
  rcases h.any (.potential { dim := 0, size := 0, card := .junk, temp := .junk, data := .junk, properties := .junk }) with ⟨m1, a1, f1, w1, k1, n1⟩ | ⟨m1, a1, f1, w1, b1, k1, n1⟩
  · rw [if_pos f1]
    refine ⟨m1, 0, ?_, by rw [zero_add]; exact w1, rfl, k1, n1⟩
    unfold Store.newPotential
    simp only [h0, if_false, a1, hnn, if_true]
  rw [if_neg (by simp [f1])]
  rcases w1.any (.ints z) with ⟨m2, a2, f2, w2, k2, n2⟩ | ⟨m2, a2, f2, w2, b2, k2, n2⟩
  · have f2' : m.fails (m.next + 1) = true := by rw [← k1.fails, ← n1]; exact f2
    rcases w2.any (.ints z) with ⟨m3, a3, f3, w3, k3, n3⟩ | ⟨m3, a3, f3, w3, b3, k3, n3⟩
    · have f3' : m.fails (m.next + 2) = true := by rw [← k1.fails, ← k2.fails, show m.next + 2 = m2.next by omega]; exact f3
      rw [if_pos f3']
      obtain ⟨m4, a4, w4, b4, k4, n4⟩ := w3.write (.potential { dim := 0, size := 0, card := .null, temp := .null, data := .junk, properties := .junk })
      obtain ⟨m5, a5, w5, k5, n5⟩ := Within.release (q := .block m.next) (by simp) w4
      refine ⟨m5, 0, ?_, by rw [zero_add]; exact w5, rfl, k1.trans ((k2.mono le2).trans ((k3.mono le2).trans (k4.trans k5))), by omega⟩
      unfold Store.newPotential
      simp only [h0, if_false, hcl, hz, a1, a2, a3, a4, a5, hbn, hnn, hfn, ok_bind, Bool.false_eq_true, Bool.or_true, if_true]
    · have f3' : m.fails (m.next + 2) = false := by rw [← k1.fails, ← k2.fails, show m.next + 2 = m2.next by omega]; exact f3
      rw [if_neg (by simp [f3']), if_pos f2']
      obtain ⟨m4, a4, w4, b4, k4, n4⟩ := Within.write (a := m.next) (m := m3) (M := {m2.next} + M) (w3.as (by ac_rfl))
        (.potential { dim := 0, size := 0, card := .null, temp := .block m2.next, data := .junk, properties := .junk })
      obtain ⟨m5, a5, w5, k5, n5⟩ := Within.release (q := .block m.next) (by simp) w4
      refine ⟨m5, {m2.next}, ?_, w5, rfl, k1.trans ((k2.mono le2).trans ((k3.mono le2).trans ((k4.mono le2).trans (k5.mono le2)))), by omega⟩
      unfold Store.newPotential
      simp only [h0, if_false, hcl, hz, a1, a2, a3, a4, a5, hbn, hnn, hfn, ok_bind, Bool.false_eq_true, Bool.true_or, if_true]
  have f2' : m.fails (m.next + 1) = false := by rw [← k1.fails, ← n1]; exact f2
  have le3 : ∀ {a b : Nat}, M ≤ {a} + ({b} + M) := (Multiset.le_add_left _ _).trans (Multiset.le_add_left _ _)
  have le4 : ∀ {a b c : Nat}, M ≤ {a} + ({b} + ({c} + M)) := le3.trans (Multiset.le_add_left _ _)
  have le5 : ∀ {a b c d : Nat}, M ≤ {a} + ({b} + ({c} + ({d} + M))) := le4.trans (Multiset.le_add_left _ _)
  rcases w2.any (.ints z) with ⟨m3, a3, f3, w3, k3, n3⟩ | ⟨m3, a3, f3, w3, b3, k3, n3⟩
  · have f3' : m.fails (m.next + 2) = true := by rw [← k1.fails, ← k2.fails, show m.next + 2 = m2.next by omega]; exact f3
    rw [if_pos f3']
    obtain ⟨m4, a4, w4, b4, k4, n4⟩ := Within.write (a := m.next) (m := m3) (M := {m1.next} + M) (w3.as (by ac_rfl))
      (.potential { dim := 0, size := 0, card := .block m1.next, temp := .null, data := .junk, properties := .junk })
    obtain ⟨m5, a5, w5, k5, n5⟩ := Within.release (q := .block m1.next) (m := m4) (M := {m.next} + M) (by simp) (w4.as (by simp only [MemPtr.blocks]; ac_rfl))
    obtain ⟨m6, a6, w6, k6, n6⟩ := Within.release (q := .block m.next) (by simp) w5
    refine ⟨m6, 0, ?_, by rw [zero_add]; exact w6, rfl, k1.trans ((k2.mono le2).trans ((k3.mono le3).trans ((k4.mono le2).trans ((k5.mono le2).trans k6)))), by omega⟩
    unfold Store.newPotential
    simp only [h0, if_false, hcl, hz, a1, a2, a3, a4, a5, a6, hbn, hnn, ok_bind, Bool.false_eq_true, Bool.or_true, if_true]
  have f3' : m.fails (m.next + 2) = false := by rw [← k1.fails, ← k2.fails, show m.next + 2 = m2.next by omega]; exact f3
  rw [if_neg (by simp [f3']), if_neg (by simp [f2'])]
  obtain ⟨m4, a4, w4, b4, k4, n4⟩ := Within.write (a := m.next) (m := m3) (M := {m2.next} + ({m1.next} + M)) (w3.as (by ac_rfl))
    (.potential { dim := 0, size := 0, card := .block m1.next, temp := .block m2.next, data := .junk, properties := .junk })
  obtain ⟨m5, a5, w5, b5, k5, n5⟩ := Within.write (a := m1.next) (m := m4) (M := {m2.next} + ({m.next} + M)) (w4.as (by ac_rfl)) (.ints row)
  have e5 : m5.next = m.next + 3 := by omega
  have kf : m5.fails = m.fails := by rw [k5.fails, k4.fails, k3.fails, k2.fails, k1.fails]
  have k15 : m.Keeps m5 M := k1.trans ((k2.mono le2).trans ((k3.mono le3).trans ((k4.mono le3).trans (k5.mono le3))))
  rcases w5.any (.reals cards.prod) with ⟨m6, a6, f6, w6, k6, n6⟩ | ⟨m6, a6, f6, w6, b6, k6, n6⟩
  · have f6' : m.fails (m.next + 3) = true := by rw [← kf, ← e5]; exact f6
    rw [if_pos f6']
    exact newPotential_noData (card := cards) h h0 (by omega) none f1 f2' f3' f6'
  have f6' : m.fails (m.next + 3) = false := by rw [← kf, ← e5]; exact f6
  rw [if_neg (by simp [f6'])]
  obtain ⟨m7, a7, w7, b7, k7, n7⟩ := Within.write (a := m.next) (m := m6) (M := {m5.next} + ({m1.next} + ({m2.next} + M))) (w6.as (by ac_rfl))
    (.potential { dim := cards.length, size := cards.prod, card := .block m1.next, temp := .block m2.next, data := .block m5.next, properties := .junk })
  have e7 : m7.next = m.next + 4 := by omega
  have kf7 : m7.fails = m.fails := by rw [k7.fails, k6.fails, kf]
  have k17 : m.Keeps m7 M := k15.trans ((k6.mono le4).trans (k7.mono le4))
  have c7 : m7.blocks m1.next = some (.ints row) := by rw [k7.same _ (by simp), k6.same _ (by simp)]; exact b5
  have d7 : m7.blocks m5.next = some (.reals cards.prod) := by rw [k7.same _ (by simp)]; exact b6
  rcases w7.any (.list { length := 0, first := .null, last := .null }) with ⟨m8, a8, f8, w8, k8, n8⟩ | ⟨m8, a8, f8, w8, b8, k8, n8⟩
  · have f8' : m.fails (m.next + 4) = true := by rw [← kf7, ← e7]; exact f8
    rw [if_pos f8']
    obtain ⟨m9, a9, w9, b9, k9, n9⟩ := w8.write (.potential { dim := cards.length, size := cards.prod, card := .block m1.next, temp := .block m2.next, data := .block m5.next, properties := .null })
    refine ⟨m9, ⟨m.next, m1.next, m2.next, m5.next, .null⟩, ?_, w9.as (by simp only [TEntry.blocks, MemPtr.blocks, add_zero]; ac_rfl), by simp [TEntry.blocks, MemPtr.blocks],
      k17.trans ((k8.mono le5).trans (k9.mono le4)), by omega, ⟨b9, ⟨row, ?_, r3⟩, ?_, Or.inl rfl⟩⟩
    · unfold Store.newPotential
      simp only [h0, if_false, hcl, hz, a1, a2, a3, a4, r1, a5, a6, a7, a8, a9, hbn, ok_bind, Bool.false_eq_true, Bool.or_false, Option.isSome_none, Bool.false_and]
    · show m9.blocks m1.next = _
      rw [k9.same _ (by simp), k8.same _ (by simp)]
      exact c7
    · show m9.blocks m5.next = _
      rw [k9.same _ (by simp), k8.same _ (by simp)]
      exact d7
  · have f8' : m.fails (m.next + 4) = false := by rw [← kf7, ← e7]; exact f8
    rw [if_neg (by simp [f8'])]
    obtain ⟨m9, a9, w9, b9, k9, n9⟩ := Within.write (a := m.next) (m := m8) (M := {m7.next} + ({m5.next} + ({m1.next} + ({m2.next} + M)))) (w8.as (by ac_rfl))
      (.potential { dim := cards.length, size := cards.prod, card := .block m1.next, temp := .block m2.next, data := .block m5.next, properties := .block m7.next })
    refine ⟨m9, ⟨m.next, m1.next, m2.next, m5.next, .block m7.next⟩, ?_, w9.as (by simp only [TEntry.blocks, MemPtr.blocks]; ac_rfl), by simp [TEntry.blocks, MemPtr.blocks],
      k17.trans ((k8.mono le5).trans (k9.mono le5)), by omega, ⟨b9, ⟨row, ?_, r3⟩, ?_, Or.inr ⟨m7.next, rfl, ?_⟩⟩⟩
    · unfold Store.newPotential
      simp only [h0, if_false, hcl, hz, a1, a2, a3, a4, r1, a5, a6, a7, a8, a9, hbn, ok_bind, Bool.false_eq_true, Bool.or_false, Option.isSome_none, Bool.false_and]
    · show m9.blocks m1.next = _
      rw [k9.same _ (by simp), k8.same _ (by simp)]
      exact c7
    · show m9.blocks m5.next = _
      rw [k9.same _ (by simp), k8.same _ (by simp)]
      exact d7
    · rw [k9.same _ (by simp)]
      exact b8

/-! ## Two tables in a row -/

/-- what the creation of two tables leaves -/
def TwoTables (m : PotMemory) (M : Multiset Nat) (cards : List Nat) (d : Int) : Fate → Prop
  | .undefined => m.newPotential cards d none = ub ∨
      ∃ (p : MemPtr) (m1 : PotMemory), m.newPotential cards d none = ok (p, m1) ∧ m1.newPotential cards d none = ub
  | .missing lost => ∃ (p o : MemPtr) (m1 m2 m3 m4 : PotMemory) (L : Multiset Nat), m.newPotential cards d none = ok (p, m1) ∧
      m1.newPotential cards d none = ok (o, m2) ∧ (p == .null || o == .null) = true ∧ m2.freePotential p = ok m3 ∧ m3.freePotential o = ok m4 ∧
      m4.Within (L + M) ∧ L.card = lost ∧ m.Keeps m4 M
  | .made n => ∃ (e f : TEntry) (m1 m2 : PotMemory), m.newPotential cards d none = ok (.block e.addr, m1) ∧
      m1.newPotential cards d none = ok (.block f.addr, m2) ∧ m2.Within (e.blocks + (f.blocks + M)) ∧ e.blocks.card + f.blocks.card = n ∧ m.Keeps m2 M ∧
      e.Good m2 cards ∧ f.Good m2 cards

theorem freePotential_null (m : PotMemory) : m.freePotential .null = ok m := rfl

theorem twoTables_spec {m : PotMemory} {M : Multiset Nat} (h : m.Within M) (cards : List Nat) {d : Int} (hd : d = (cards.length : Int)) : TwoTables m M cards d (tablesFate m.fails m.next) := by
  subst hd
  have s1 := newTable_spec h cards
  unfold tablesFate
  generalize hF : tableFate m.fails m.next = F at s1 ⊢
  obtain ⟨F, k⟩ := F
  match F with
  | .undefined =>
    have : ∀ G, bothFates .undefined G = .undefined := by intro G; cases G <;> rfl
    rw [this]
    exact Or.inl s1
  | .missing a =>
    obtain ⟨m1, L1, q1, w1, c1, k1, n1⟩ := s1
    have s2 := newTable_spec w1 cards
    rw [k1.fails, n1] at s2
    show TwoTables m M cards (cards.length : Int) (bothFates (.missing a) (tableFate m.fails k).1)
    generalize tableFate m.fails k = G at s2 ⊢
    obtain ⟨G, k'⟩ := G
    match G with
    | .undefined => exact Or.inr ⟨_, m1, q1, s2⟩
    | .missing b =>
      obtain ⟨m2, L2, q2, w2, c2, k2, n2⟩ := s2
      exact ⟨_, _, m1, m2, m2, m2, L2 + L1, q1, q2, rfl, rfl, rfl, w2.as (by ac_rfl), by rw [Multiset.card_add]; omega, k1.trans (k2.mono (Multiset.le_add_left _ _))⟩
    | .made b =>
      obtain ⟨m2, e, q2, w2, c2, k2, n2, g2⟩ := s2
      obtain ⟨m3, q3, w3, k3⟩ := freeTable_spec w2 g2
      exact ⟨_, _, m1, m2, m2, m3, L1, q1, q2, rfl, rfl, q3, w3, c1, k1.trans ((k2.mono (Multiset.le_add_left _ _)).trans (k3.mono (Multiset.le_add_left _ _)))⟩
  | .made a =>
    obtain ⟨m1, e, q1, w1, c1, k1, n1, g1⟩ := s1
    have s2 := newTable_spec w1 cards
    rw [k1.fails, n1] at s2
    show TwoTables m M cards (cards.length : Int) (bothFates (.made a) (tableFate m.fails k).1)
    generalize tableFate m.fails k = G at s2 ⊢
    obtain ⟨G, k'⟩ := G
    match G with
    | .undefined => exact Or.inr ⟨_, m1, q1, s2⟩
    | .missing b =>
      obtain ⟨m2, L2, q2, w2, c2, k2, n2⟩ := s2
      obtain ⟨m3, q3, w3, k3⟩ := freeTable_spec (M := L2 + M) (w2.as (by ac_rfl)) (g1.keep (k2.same.mono (Multiset.le_add_right _ _)))
      exact ⟨_, _, m1, m2, m3, m3, L2, q1, q2, rfl, q3, rfl, w3, c2, k1.trans ((k2.mono (Multiset.le_add_left _ _)).trans (k3.mono (Multiset.le_add_left _ _)))⟩
    | .made b =>
      obtain ⟨m2, f, q2, w2, c2, k2, n2, g2⟩ := s2
      exact ⟨e, f, m1, m2, q1, q2, w2.as (by ac_rfl), by omega, k1.trans (k2.mono (Multiset.le_add_left _ _)), g1.keep (k2.same.mono (Multiset.le_add_right _ _)), g2⟩

/-- Freeing two tables. -/
theorem freeTwo_spec {m : PotMemory} {M : Multiset Nat} {e f : TEntry} {cards : List Nat} (h : m.Within (e.blocks + (f.blocks + M))) (he : e.Good m cards) (hf : f.Good m cards) :
    ∃ m1 m2, m.freePotential (.block e.addr) = ok m1 ∧ m1.freePotential (.block f.addr) = ok m2 ∧ m2.Within M ∧ m.Keeps m2 M := by
  obtain ⟨m1, a1, w1, k1⟩ := freeTable_spec h he
  obtain ⟨m2, a2, w2, k2⟩ := freeTable_spec w1 (hf.keep (k1.same.mono (Multiset.le_add_right _ _)))
  exact ⟨m1, m2, a1, a2, w2, (k1.mono (Multiset.le_add_left _ _)).trans k2⟩

/-! ## The other memory -/

namespace TreeMemory

theorem cliqueAt_eq {r : Store CliqueBlock} {a : Nat} {c : CliqueCell} (h : r.blocks a = some (.clique c)) : cliqueAt r (.block a) = ok c := by
  unfold cliqueAt Store.get
  simp only [h, ok_bind]

theorem sepsetAt_eq {r : Store CliqueBlock} {a : Nat} {c : SepsetCell} (h : r.blocks a = some (.sepset c)) : sepsetAt r (.block a) = ok c := by
  unfold sepsetAt Store.get
  simp only [h, ok_bind]

theorem sepLinkAt_eq {r : Store CliqueBlock} {a : Nat} {c : SepsetLink} (h : r.blocks a = some (.link c)) : sepLinkAt r (.block a) = ok c := by
  unfold sepLinkAt Store.get
  simp only [h, ok_bind]

theorem varsOf_eq {r : Store CliqueBlock} {a : Nat} {l : List Nat} (h : r.blocks a = some (.vars l)) : varsOf r (.block a) l.length = ok l := by
  unfold varsOf Store.get
  simp only [h, ok_bind, le_refl, if_true, List.take_length]

/-- what the creation of a clique leaves when nothing else is in the way -/
def CliqueMade (card : Nat → Nat) (vars : List Nat) (w : TreeMemory) (M N : Multiset Nat) : Fate → Prop
  | .undefined => newClique card vars w = ub
  | .missing lost => ∃ (w' : TreeMemory) (L : Multiset Nat), newClique card vars w = ok (.null, w') ∧ w'.rest.Within M ∧ w.rest.Keeps w'.rest M ∧ w'.pots.Within (L + N) ∧ L.card = lost ∧
      w.pots.Keeps w'.pots N
  | .made n => ∃ (c v : Nat) (e f : TEntry) (vs : List Nat) (w' : TreeMemory), newClique card vars w = ok (.block c, w') ∧ SortedOf vars vs ∧
      w'.rest.blocks c = some (.clique { vars := .block v, p := .block e.addr, orig := .block f.addr, sepsets := .null }) ∧ w'.rest.blocks v = some (.vars vs) ∧
      e.Good w'.pots (vs.map card) ∧ f.Good w'.pots (vs.map card) ∧ w'.rest.Within ({c} + ({v} + M)) ∧ w.rest.Keeps w'.rest M ∧
      w'.pots.Within (e.blocks + (f.blocks + N)) ∧ e.blocks.card + f.blocks.card = n ∧ w.pots.Keeps w'.pots N

theorem newClique_spec {card : Nat → Nat} {vars : List Nat} (hv : vars.Nodup) {w : TreeMemory} {M N : Multiset Nat} (hr : w.rest.Within M) (hp : w.pots.Within N) :
    ((∃ j < 5, w.rest.fails (w.rest.next + j) = true) → ∃ r, newClique card vars w = ok (.null, { w with rest := r }) ∧ r.Within M ∧ w.rest.Keeps r M) ∧
    ((∀ j < 5, w.rest.fails (w.rest.next + j) = false) → CliqueMade card vars w M N (tablesFate w.pots.fails w.pots.next)) := by
  obtain ⟨vs, hvs⟩ := exists_sortedOf vars hv
  have hsort := sortClique_eq vars vs hvs
  have hlen : vars.length = (vs.map card).length := by
    rw [List.length_map]
    have := sortClique_sort vars hv
    rw [hsort] at this
    cases this
    simp [List.toFinset_card_of_nodup hv]
  have hbn : ∀ x : Nat, (MemPtr.block x == MemPtr.null) = false := fun _ => rfl
  have hnn : (MemPtr.null == MemPtr.null) = true := rfl
  obtain ⟨m, r0⟩ := w
  simp only at hr hp ⊢
  have l1 : ∀ {a : Nat}, M ≤ {a} + M := Multiset.le_add_left _ _
  have l2 : ∀ {a b : Nat}, M ≤ {a} + ({b} + M) := l1.trans (Multiset.le_add_left _ _)
  have l3 : ∀ {a b c : Nat}, M ≤ {a} + ({b} + ({c} + M)) := l2.trans (Multiset.le_add_left _ _)
  have l4 : ∀ {a b c d : Nat}, M ≤ {a} + ({b} + ({c} + ({d} + M))) := l3.trans (Multiset.le_add_left _ _)
  rcases hr.any (.clique { vars := .junk, p := .junk, orig := .junk, sepsets := .junk }) with ⟨r1, a1, f1, w1, k1, n1⟩ | ⟨r1, a1, f1, w1, b1, k1, n1⟩
  · refine ⟨fun _ => ⟨r1, ?_, w1, k1⟩, fun h => ?_⟩
    · unfold newClique
      simp only [a1, hnn, if_true]
    · have := h 0 (by omega)
      rw [Nat.add_zero, f1] at this
      cases this
  rcases w1.any .scratch with ⟨r2, a2, f2, w2, k2, n2⟩ | ⟨r2, a2, f2, w2, b2, k2, n2⟩
  · have f2' : r0.fails (r0.next + 1) = true := by rw [← k1.fails, ← n1]; exact f2
    obtain ⟨r3, a3, w3, k3, n3⟩ := Within.release (q := .block r0.next) (by simp) w2
    refine ⟨fun _ => ⟨r3, ?_, w3, k1.trans ((k2.mono l1).trans k3)⟩, fun h => ?_⟩
    · unfold newClique
      simp only [a1, a2, a3, hnn, hbn, if_true, Bool.false_eq_true, if_false, ok_bind]
    · rw [h 1 (by omega)] at f2'
      cases f2'
  have f2' : r0.fails (r0.next + 1) = false := by rw [← k1.fails, ← n1]; exact f2
  rcases w2.any .scratch with ⟨r3, a3, f3, w3, k3, n3⟩ | ⟨r3, a3, f3, w3, b3, k3, n3⟩
  · have f3' : r0.fails (r0.next + 2) = true := by rw [← k1.fails, ← k2.fails, show r0.next + 2 = r2.next by omega]; exact f3
    obtain ⟨r4, a4, w4, k4, n4⟩ := Within.release (q := .block r0.next) (m := r3) (M := {r1.next} + M) (by simp) (w3.as (by simp only [MemPtr.blocks]; ac_rfl))
    obtain ⟨r5, a5, w5, k5, n5⟩ := Within.release (q := .block r1.next) (by simp) w4
    refine ⟨fun _ => ⟨r5, ?_, w5, k1.trans ((k2.mono l1).trans ((k3.mono l2).trans ((k4.mono l1).trans k5)))⟩, fun h => ?_⟩
    · unfold newClique
      simp only [a1, a2, a3, a4, a5, hnn, hbn, if_true, Bool.false_eq_true, if_false, ok_bind]
    · rw [h 2 (by omega)] at f3'
      cases f3'
  have f3' : r0.fails (r0.next + 2) = false := by rw [← k1.fails, ← k2.fails, show r0.next + 2 = r2.next by omega]; exact f3
  rcases w3.any .scratch with ⟨r4, a4, f4, w4, k4, n4⟩ | ⟨r4, a4, f4, w4, b4, k4, n4⟩
  · have f4' : r0.fails (r0.next + 3) = true := by rw [← k1.fails, ← k2.fails, ← k3.fails, show r0.next + 3 = r3.next by omega]; exact f4
    obtain ⟨r5, a5, w5, k5, n5⟩ := Within.release (q := .block r0.next) (m := r4) (M := {r2.next} + ({r1.next} + M)) (by simp) (w4.as (by simp only [MemPtr.blocks]; ac_rfl))
    obtain ⟨r6, a6, w6, k6, n6⟩ := Within.release (q := .block r1.next) (m := r5) (M := {r2.next} + M) (by simp) (w5.as (by simp only [MemPtr.blocks]; ac_rfl))
    obtain ⟨r7, a7, w7, k7, n7⟩ := Within.release (q := .block r2.next) (by simp) w6
    refine ⟨fun _ => ⟨r7, ?_, w7, k1.trans ((k2.mono l1).trans ((k3.mono l2).trans ((k4.mono l3).trans ((k5.mono l2).trans ((k6.mono l1).trans k7)))))⟩, fun h => ?_⟩
    · unfold newClique
      simp only [a1, a2, a3, a4, a5, a6, a7, hnn, hbn, if_true, Bool.false_eq_true, if_false, ok_bind]
    · rw [h 3 (by omega)] at f4'
      cases f4'
  have f4' : r0.fails (r0.next + 3) = false := by rw [← k1.fails, ← k2.fails, ← k3.fails, show r0.next + 3 = r3.next by omega]; exact f4
  rcases w4.any (.vars vs) with ⟨r5, a5, f5, w5, k5, n5⟩ | ⟨r5, a5, f5, w5, b5, k5, n5⟩
  · have f5' : r0.fails (r0.next + 4) = true := by rw [← k1.fails, ← k2.fails, ← k3.fails, ← k4.fails, show r0.next + 4 = r4.next by omega]; exact f5
    obtain ⟨r6, a6, w6, k6, n6⟩ := Within.release (q := .block r0.next) (m := r5) (M := {r3.next} + ({r2.next} + ({r1.next} + M))) (by simp) (w5.as (by simp only [MemPtr.blocks]; ac_rfl))
    obtain ⟨r7, a7, w7, k7, n7⟩ := Within.release (q := .block r1.next) (m := r6) (M := {r3.next} + ({r2.next} + M)) (by simp) (w6.as (by simp only [MemPtr.blocks]; ac_rfl))
    obtain ⟨r8, a8, w8, k8, n8⟩ := Within.release (q := .block r2.next) (m := r7) (M := {r3.next} + M) (by simp) (w7.as (by simp only [MemPtr.blocks]; ac_rfl))
    obtain ⟨r9, a9, w9, k9, n9⟩ := Within.release (q := .block r3.next) (by simp) w8
    refine ⟨fun _ => ⟨r9, ?_, w9, k1.trans ((k2.mono l1).trans ((k3.mono l2).trans ((k4.mono l3).trans ((k5.mono l4).trans ((k6.mono l3).trans ((k7.mono l2).trans ((k8.mono l1).trans k9)))))))⟩, fun h => ?_⟩
    · unfold newClique
      simp only [a1, a2, a3, a4, hsort, a5, a6, a7, a8, a9, hnn, hbn, if_true, Bool.false_eq_true, if_false, ok_bind]
    · rw [h 4 (by omega)] at f5'
      cases f5'
  have f5' : r0.fails (r0.next + 4) = false := by rw [← k1.fails, ← k2.fails, ← k3.fails, ← k4.fails, show r0.next + 4 = r4.next by omega]; exact f5
  refine ⟨fun ⟨j, hj, hf⟩ => ?_, fun _ => ?_⟩
  · have : j = 0 ∨ j = 1 ∨ j = 2 ∨ j = 3 ∨ j = 4 := by omega
    rcases this with rfl | rfl | rfl | rfl | rfl
    · rw [Nat.add_zero, f1] at hf; cases hf
    · rw [f2'] at hf; cases hf
    · rw [f3'] at hf; cases hf
    · rw [f4'] at hf; cases hf
    · rw [f5'] at hf; cases hf
  -- the three arrays that are freed in any case
  obtain ⟨r6, a6, w6, k6, n6⟩ := Within.release (q := .block r1.next) (m := r5) (M := {r4.next} + ({r3.next} + ({r2.next} + ({r0.next} + M)))) (by simp) (w5.as (by simp only [MemPtr.blocks]; ac_rfl))
  obtain ⟨r7, a7, w7, k7, n7⟩ := Within.release (q := .block r3.next) (m := r6) (M := {r4.next} + ({r2.next} + ({r0.next} + M))) (by simp) (w6.as (by simp only [MemPtr.blocks]; ac_rfl))
  obtain ⟨r8, a8, w8, k8, n8⟩ := Within.release (q := .block r2.next) (m := r7) (M := {r4.next} + ({r0.next} + M)) (by simp) (w7.as (by simp only [MemPtr.blocks]; ac_rfl))
  have k08 : r0.Keeps r8 M := k1.trans ((k2.mono l1).trans ((k3.mono l2).trans ((k4.mono l3).trans ((k5.mono l4).trans ((k6.mono l4).trans ((k7.mono l3).trans (k8.mono l2)))))))
  have b8 : r8.blocks r4.next = some (.vars vs) := by rw [k8.same _ (by simp), k7.same _ (by simp), k6.same _ (by simp)]; exact b5
  have s := twoTables_spec hp (vs.map card) (d := (vars.length : Int)) (by rw [hlen])
  generalize tablesFate m.fails m.next = F at s ⊢
  match F with
  | .undefined =>
    rcases s with s | ⟨p, m1, s, s'⟩
    · show newClique card vars _ = ub
      unfold newClique
      simp only [a1, a2, a3, a4, hsort, a5, hbn, Bool.false_eq_true, if_false, ok_bind]
      rw [s, ub_bind]
    · show newClique card vars _ = ub
      unfold newClique
      simp only [a1, a2, a3, a4, hsort, a5, hbn, Bool.false_eq_true, if_false, ok_bind]
      rw [s, ok_bind]
      simp only
      rw [s', ub_bind]
  | .missing lost =>
    obtain ⟨p, o, m1, m2, m3, m4, L, q1, q2, q3, q4, q5, q6, q7, q8⟩ := s
    obtain ⟨r9, a9, w9, k9, n9⟩ := Within.release (q := .block r4.next) (by simp) w8
    obtain ⟨r10, a10, w10, k10, n10⟩ := Within.release (q := .block r0.next) (by simp) w9
    refine ⟨⟨m4, r10⟩, L, ?_, w10, k08.trans ((k9.mono l1).trans k10), q6, q7, q8⟩
    unfold newClique
    simp only [a1, a2, a3, a4, hsort, a5, hbn, Bool.false_eq_true, if_false, ok_bind, q1, q2, q3, if_true, a6, a7, a8, a9, q4, q5, a10]
  | .made n =>
    obtain ⟨e, f, m1, m2, q1, q2, q3, q4, q5, q6, q7⟩ := s
    obtain ⟨r9, a9, w9, b9, k9, n9⟩ := Within.write (a := r0.next) (m := r8) (M := {r4.next} + M) (w8.as (by ac_rfl)) (.clique { vars := .block r4.next, p := .block e.addr, orig := .block f.addr, sepsets := .null })
    refine ⟨r0.next, r4.next, e, f, vs, ⟨m2, r9⟩, ?_, hvs, b9, ?_, q6, q7, w9, k08.trans (k9.mono l1), q3, q4, q5⟩
    · unfold newClique
      simp only [a1, a2, a3, a4, hsort, a5, hbn, Bool.false_eq_true, if_false, ok_bind, q1, q2, Bool.or_false, a6, a7, a8, a9]
    · show r9.blocks _ = _
      rw [k9.same _ (by simp)]
      exact b8

/-- Freeing a clique without separators. -/
theorem freeClique_spec {w : TreeMemory} {M N : Multiset Nat} {c v : Nat} {e f : TEntry} {cards : List Nat}
    (hc : w.rest.blocks c = some (.clique { vars := .block v, p := .block e.addr, orig := .block f.addr, sepsets := .null }))
    (hr : w.rest.Within ({c} + ({v} + M))) (he : e.Good w.pots cards) (hf : f.Good w.pots cards) (hp : w.pots.Within (e.blocks + (f.blocks + N))) :
    ∃ w', freeClique w (.block c) = ok w' ∧ w'.rest.Within M ∧ w.rest.Keeps w'.rest M ∧ w'.pots.Within N ∧ w.pots.Keeps w'.pots N := by
  obtain ⟨m1, m2, a1, a2, w2, k2⟩ := freeTwo_spec hp he hf
  obtain ⟨r1, a3, w3, k3, n3⟩ := Within.release (q := .block v) (m := w.rest) (M := {c} + M) (by simp) (hr.as (by simp only [MemPtr.blocks]; ac_rfl))
  obtain ⟨r2, a4, w4, k4, n4⟩ := Within.release (q := .block c) (by simp) w3
  refine ⟨⟨m2, r2⟩, ?_, w4, (k3.mono (Multiset.le_add_left _ _)).trans k4, w2, k2⟩
  unfold freeClique
  rw [isNull_block, ok_bind]
  simp only [Bool.false_eq_true, if_false]
  rw [cliqueAt_eq hc, ok_bind]
  simp only [isNull_null, ok_bind, Bool.not_true, Bool.false_eq_true, if_false, a1, a2, a3, a4]

/-- Freeing a separator. -/
theorem freeSepset_spec {w : TreeMemory} {M N : Multiset Nat} {s : Nat} {v a b : MemPtr} {e f : TEntry} {cards : List Nat} (hv : v ≠ .junk)
    (hc : w.rest.blocks s = some (.sepset { vars := v, old := .block e.addr, new := .block f.addr, first := a, second := b }))
    (hr : w.rest.Within ({s} + (v.blocks + M))) (he : e.Good w.pots cards) (hf : f.Good w.pots cards) (hp : w.pots.Within (e.blocks + (f.blocks + N))) :
    ∃ w', freeSepset w (.block s) = ok w' ∧ w'.rest.Within M ∧ w.rest.Keeps w'.rest M ∧ w'.pots.Within N ∧ w.pots.Keeps w'.pots N := by
  obtain ⟨m1, m2, a1, a2, w2, k2⟩ := freeTwo_spec hp he hf
  obtain ⟨r1, a3, w3, k3, n3⟩ := Within.release (q := v) (m := w.rest) (M := {s} + M) hv (hr.as (by ac_rfl))
  obtain ⟨r2, a4, w4, k4, n4⟩ := Within.release (q := .block s) (by simp) w3
  refine ⟨⟨m2, r2⟩, ?_, w4, (k3.mono (Multiset.le_add_left _ _)).trans k4, w2, k2⟩
  unfold freeSepset
  rw [isNull_block, ok_bind]
  simp only [Bool.false_eq_true, if_false]
  rw [sepsetAt_eq hc, ok_bind]
  simp only [a1, a2, a3, a4, ok_bind]

/-- what the end of the creation of a separator leaves -/
def SepsetMade (r : Res (MemPtr × TreeMemory)) (card : Nat → Nat) (vs : List Nat) (w : TreeMemory) (s : Nat) (v a b : MemPtr) (M N : Multiset Nat) : Fate → Prop
  | .undefined => r = ub
  | .missing lost => ∃ (w' : TreeMemory) (L : Multiset Nat), r = ok (.null, w') ∧ w'.rest.Within M ∧ w.rest.Keeps w'.rest M ∧ w'.pots.Within (L + N) ∧ L.card = lost ∧
      w.pots.Keeps w'.pots N
  | .made n => ∃ (e f : TEntry) (w' : TreeMemory), r = ok (.block s, w') ∧
      w'.rest.blocks s = some (.sepset { vars := v, old := .block e.addr, new := .block f.addr, first := a, second := b }) ∧
      e.Good w'.pots (vs.map card) ∧ f.Good w'.pots (vs.map card) ∧ w'.rest.Within ({s} + (v.blocks + M)) ∧ w.rest.Keeps w'.rest (v.blocks + M) ∧
      w'.pots.Within (e.blocks + (f.blocks + N)) ∧ e.blocks.card + f.blocks.card = n ∧ w.pots.Keeps w'.pots N

theorem fillSepset_spec {card : Nat → Nat} {a b : MemPtr} {vs : List Nat} {w : TreeMemory} {s : Nat} {v q : MemPtr} {M N : Multiset Nat} (hv : v ≠ .junk) (hq : q ≠ .junk)
    (hr : w.rest.Within (q.blocks + ({s} + (v.blocks + M)))) (hp : w.pots.Within N) :
    SepsetMade (fillSepset card a b vs w (.block s) v q) card vs w s v a b M N (tablesFate w.pots.fails w.pots.next) := by
  have hl : vs.length = (vs.map card).length := by simp
  have t := twoTables_spec hp (vs.map card) (d := (vs.length : Int)) (by rw [hl])
  obtain ⟨m, r0⟩ := w
  simp only at hr hp t ⊢
  obtain ⟨r1, a1, w1, k1, n1⟩ := Within.release hq hr
  generalize tablesFate m.fails m.next = F at t ⊢
  match F with
  | .undefined =>
    show fillSepset card a b vs _ (.block s) v q = ub
    unfold fillSepset
    rcases t with t | ⟨p, m1, t, t'⟩
    · simp only [t, ub_bind]
    · simp only [t, ok_bind, t', ub_bind]
  | .missing lost =>
    obtain ⟨p, o, m1, m2, m3, m4, L, q1, q2, q3, q4, q5, q6, q7, q8⟩ := t
    obtain ⟨r2, a2, w2, b2, k2, n2⟩ := w1.write (.sepset { vars := v, old := p, new := o, first := a, second := b })
    obtain ⟨r3, a3, w3, k3, n3⟩ := Within.release (q := v) (m := r2) (M := {s} + M) hv (w2.as (by ac_rfl))
    obtain ⟨r4, a4, w4, k4, n4⟩ := Within.release (q := .block s) (by simp) w3
    have l1 : M ≤ v.blocks + M := Multiset.le_add_left _ _
    refine ⟨⟨m4, r4⟩, L, ?_, w4, (k1.mono (l1.trans (Multiset.le_add_left _ _))).trans ((k2.mono l1).trans ((k3.mono (Multiset.le_add_left _ _)).trans k4)), q6, q7, q8⟩
    unfold fillSepset
    simp only [q1, q2, ok_bind, a1, a2, q3, if_true]
    unfold freeSepset
    rw [isNull_block, ok_bind]
    simp only [Bool.false_eq_true, if_false]
    rw [sepsetAt_eq b2, ok_bind]
    simp only [q4, q5, a3, a4, ok_bind]
  | .made n =>
    obtain ⟨e, f, m1, m2, q1, q2, q3, q4, q5, q6, q7⟩ := t
    obtain ⟨r2, a2, w2, b2, k2, n2⟩ := w1.write (.sepset { vars := v, old := .block e.addr, new := .block f.addr, first := a, second := b })
    refine ⟨e, f, ⟨m2, r2⟩, ?_, b2, q6, q7, w2, (k1.mono (Multiset.le_add_left _ _)).trans k2, q3, q4, q5⟩
    have hbn : ∀ x : Nat, (MemPtr.block x == MemPtr.null) = false := fun _ => rfl
    unfold fillSepset
    simp only [q1, q2, ok_bind, a1, a2, hbn, Bool.or_false, Bool.false_eq_true, if_false]

/-! ## Lists of separators -/

/-- From `p` on, the entries at these places hold these separators, linked in both directions; the entry before the first one is `prev`. -/
def SepChain (r : Store CliqueBlock) : MemPtr → MemPtr → List (Nat × MemPtr) → Prop
  | _, p, [] => p = .null
  | prev, p, (x, s) :: l => p = .block x ∧ ∃ f, r.blocks x = some (.link { data := s, fwd := f, bwd := prev }) ∧ SepChain r (.block x) f l

theorem SepChain.keep {r r' : Store CliqueBlock} : ∀ {l : List (Nat × MemPtr)} {prev p : MemPtr}, SepChain r prev p l → (∀ x ∈ l.map Prod.fst, r'.blocks x = r.blocks x) → SepChain r' prev p l
  | [], _, _, h, _ => h
  | (x, s) :: l, prev, p, h, hs => by
    obtain ⟨h1, f, h2, h3⟩ := h
    exact ⟨h1, f, by rw [hs x (by simp)]; exact h2, SepChain.keep h3 (fun y hy => hs y (by simp only [List.map_cons, List.mem_cons]; exact Or.inr hy))⟩

theorem SepChain.link {r : Store CliqueBlock} : ∀ {l : List (Nat × MemPtr)} {prev p : MemPtr}, SepChain r prev p l → ∀ x ∈ l.map Prod.fst, ∃ k, r.blocks x = some (.link k)
  | [], _, _, _, x, hx => by simp at hx
  | (y, s) :: l, prev, p, h, x, hx => by
    obtain ⟨h1, f, h2, h3⟩ := h
    simp only [List.map_cons, List.mem_cons] at hx
    rcases hx with rfl | hx
    · exact ⟨_, h2⟩
    · exact SepChain.link h3 x hx

theorem put_at {m : Store CliqueBlock} {a : Nat} {x : CliqueBlock} (h : m.blocks a = some x) (b : CliqueBlock) :
    m.put (.block a) b = ok { m with blocks := Function.update m.blocks a (some b) } := by
  unfold Store.put
  simp only [h]

theorem inUse_congr {m m' : Store CliqueBlock} (hn : m'.next = m.next) (h : ∀ x, (m'.blocks x).isSome = (m.blocks x).isSome) : m'.inUse = m.inUse := by
  unfold Store.inUse
  rw [hn]
  simp only [h]

/-- One round of confirming a separator. -/
theorem putFirst_spec {r : Store CliqueBlock} {s : MemPtr} {n c : Nat} {k : CliqueCell} {y : CliqueBlock} {l : List (Nat × MemPtr)} (hn : r.blocks n = some y) (hnc : n ≠ c)
    (hc : r.blocks c = some (.clique k)) (hl : SepChain r .null k.sepsets l) (hd : (l.map Prod.fst).Nodup) (hnl : n ∉ l.map Prod.fst) :
    ∃ r', putFirst r s (.block n) (.block c) = ok r' ∧ r'.next = r.next ∧ (∀ x, (r'.blocks x).isSome = (r.blocks x).isSome) ∧
      r'.blocks c = some (.clique { k with sepsets := .block n }) ∧ SepChain r' .null (.block n) ((n, s) :: l) ∧
      ∀ x, x ≠ c → x ≠ n → x ∉ l.map Prod.fst → r'.blocks x = r.blocks x := by
  have hcl : c ∉ l.map Prod.fst := by
    intro h
    obtain ⟨j, hj⟩ := hl.link c h
    rw [hc] at hj
    cases hj
  unfold putFirst
  rw [cliqueAt_eq hc, ok_bind, put_at hn, ok_bind]
  generalize hr1 : ({ r with blocks := Function.update r.blocks n (some (.link { data := s, fwd := k.sepsets, bwd := .null })) } : Store CliqueBlock) = r1
  have e1 : ∀ x, x ≠ n → r1.blocks x = r.blocks x := by
    intro x hx
    rw [← hr1]
    simp [Function.update_of_ne hx]
  have e1n : r1.blocks n = some (.link { data := s, fwd := k.sepsets, bwd := .null }) := by rw [← hr1]; simp
  have e1x : r1.next = r.next := by rw [← hr1]
  have c1 : r1.blocks c = some (.clique k) := by rw [e1 c hnc.symm]; exact hc
  match l with
  | [] =>
    have hk : k.sepsets = .null := hl
    rw [hk, isNull_null, ok_bind]
    simp only [if_true, ok_bind]
    rw [cliqueAt_eq c1, ok_bind, put_at c1]
    refine ⟨_, rfl, e1x, fun x => ?_, by simp, ⟨rfl, .null, ?_, rfl⟩, fun x hx hx' _ => ?_⟩
    · by_cases h1 : x = c
      · subst h1; simp [hc]
      · simp only [Function.update_of_ne h1]
        by_cases h2 : x = n
        · subst h2; simp [e1n, hn]
        · rw [e1 x h2]
    · simp only [Function.update_of_ne hnc]
      rw [e1n, hk]
    · simp only [Function.update_of_ne hx]
      exact e1 x hx'
  | (h, t) :: l =>
    obtain ⟨hk, f, hh, hrest⟩ := hl
    have hnh : h ≠ n := by
      rintro rfl
      exact hnl (by simp)
    have hch : h ≠ c := by
      rintro rfl
      exact hcl (by simp)
    have h1 : r1.blocks h = some (.link { data := t, fwd := f, bwd := .null }) := by rw [e1 h hnh]; exact hh
    rw [hk, isNull_block, ok_bind]
    simp only [Bool.false_eq_true, if_false, sepLinkAt_eq h1, ok_bind, put_at h1]
    generalize hr2 : ({ r1 with blocks := Function.update r1.blocks h (some (.link { data := t, fwd := f, bwd := .block n })) } : Store CliqueBlock) = r2
    have e2 : ∀ x, x ≠ h → r2.blocks x = r1.blocks x := by
      intro x hx
      rw [← hr2]
      simp [Function.update_of_ne hx]
    have e2h : r2.blocks h = some (.link { data := t, fwd := f, bwd := .block n }) := by rw [← hr2]; simp
    have e2x : r2.next = r.next := by rw [← hr2]; exact e1x
    have c2 : r2.blocks c = some (.clique k) := by rw [e2 c hch.symm]; exact c1
    rw [cliqueAt_eq c2, ok_bind, put_at c2]
    simp only [List.map_cons, List.nodup_cons] at hd
    refine ⟨_, rfl, e2x, fun x => ?_, by simp, ⟨rfl, .block h, ?_, rfl, f, ?_, hrest.keep (fun x hx => ?_)⟩, fun x hx hx' hx2 => ?_⟩
    · by_cases x1 : x = c
      · subst x1; simp [hc]
      · simp only [Function.update_of_ne x1]
        by_cases x3 : x = h
        · subst x3; simp [e2h, hh]
        · rw [e2 x x3]
          by_cases x2 : x = n
          · subst x2; simp [e1n, hn]
          · rw [e1 x x2]
    · simp only [Function.update_of_ne hnc]
      rw [e2 n hnh.symm, e1n, hk]
    · simp only [Function.update_of_ne hch]
      exact e2h
    · have x1 : x ≠ c := by
        rintro rfl
        exact hcl (by simp only [List.map_cons, List.mem_cons]; exact Or.inr hx)
      have x2 : x ≠ n := by
        rintro rfl
        exact hnl (by simp only [List.map_cons, List.mem_cons]; exact Or.inr hx)
      have x3 : x ≠ h := by
        rintro rfl
        exact hd.1 hx
      simp only [Function.update_of_ne x1]
      rw [e2 x x3, e1 x x2]
    · have x3 : x ≠ h := by
        rintro rfl
        exact hx2 (by simp)
      simp only [Function.update_of_ne hx]
      rw [e2 x x3, e1 x hx']

end TreeMemory

end Nip
