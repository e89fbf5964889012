import Verif.HeapMemory
import Verif.HeapLemmas
import Verif.DataMemoryLemmas

/-!
# Lemmas about the memory of queues: arrays of items, sifting, lists of integers
-/

namespace Nip

open Res Spec

namespace Store

theorem queueAt_eq {m : QueueMemory} {a : Nat} {c : QueueCell} (h : m.blocks a = some (.heap c)) : m.queueAt (.block a) = ok c := by
  unfold queueAt Store.get
  simp only [h, ok_bind]

theorem slotsAt_eq {m : QueueMemory} {a : Nat} {c : List MemPtr} (h : m.blocks a = some (.slots c)) : m.slotsAt (.block a) = ok c := by
  unfold slotsAt Store.get
  simp only [h, ok_bind]

theorem itemAt_eq {m : QueueMemory} {a : Nat} {c : HeapItem Nat} (h : m.blocks a = some (.item c)) : m.itemAt (.block a) = ok c := by
  unfold itemAt Store.get
  simp only [h, ok_bind]

theorem intListAt_eq {m : QueueMemory} {a : Nat} {c : IntHead} (h : m.blocks a = some (.list c)) : m.intListAt (.block a) = ok c := by
  unfold intListAt Store.get
  simp only [h, ok_bind]

theorem intLinkAt_eq {m : QueueMemory} {a : Nat} {c : IntLink} (h : m.blocks a = some (.link c)) : m.intLinkAt (.block a) = ok c := by
  unfold intLinkAt Store.get
  simp only [h, ok_bind]

theorem slotAt_eq {m : QueueMemory} {a i : Nat} {l : List MemPtr} (h : m.blocks a = some (.slots l)) {p : MemPtr} (hi : l[i]? = some p) : m.slotAt (.block a) i = ok p := by
  unfold slotAt
  rw [slotsAt_eq h, ok_bind, rd_eq_ok, hi]

theorem Within.setSlot {m : QueueMemory} {M : Multiset Nat} {a i : Nat} {l : List MemPtr} (h : m.Within ({a} + M)) (e : m.blocks a = some (.slots l)) (hi : i < l.length)
    (p : MemPtr) : ∃ m', m.setSlot (.block a) i p = ok m' ∧ m'.Within ({a} + M) ∧ m'.blocks a = some (.slots (l.set i p)) ∧ m.Keeps m' M ∧ m'.next = m.next := by
  obtain ⟨m', a1, w1, b1, k1, n1⟩ := h.write (.slots (l.set i p))
  refine ⟨m', ?_, w1, b1, k1, n1⟩
  unfold Store.setSlot
  rw [slotsAt_eq e, ok_bind, wr_lt hi, ok_bind, a1]

end Store

open Store

/-- an item with its address -/
abbrev TItem := HeapItem (Nat × Nat)

/-- the item -/
def TItem.bare (x : TItem) : HeapItem Nat := { content := x.content.2, primary := x.primary, secondary := x.secondary }

/-- the pointers to the items -/
def slotPtrs (l : List TItem) : List MemPtr := l.map (fun x => .block x.content.1)

theorem slotPtrs_length (l : List TItem) : (slotPtrs l).length = l.length := by simp [slotPtrs]

theorem slotPtrs_get {l : List TItem} {rest : List MemPtr} {i : Nat} (h : i < l.length) : (slotPtrs l ++ rest)[i]? = some (.block l[i].content.1) := by
  rw [List.getElem?_append_left (by rw [slotPtrs_length]; exact h)]
  simp [slotPtrs, h]

theorem slotPtrs_set {l : List TItem} {rest : List MemPtr} {i : Nat} (h : i < l.length) (x : TItem) : (slotPtrs l ++ rest).set i (.block x.content.1) = slotPtrs (l.set i x) ++ rest := by
  rw [List.set_append_left _ _ (by rw [slotPtrs_length]; exact h)]
  unfold slotPtrs
  rw [List.map_set]

theorem mem_slotPtrs {l : List TItem} {x : TItem} (h : x ∈ l) : x.content.1 ∈ ptrBlocks (slotPtrs l) := mem_ptrBlocks (List.mem_map_of_mem (f := fun x : TItem => MemPtr.block x.content.1) h)

theorem slotPtrs_perm {l l' : List TItem} (h : l.Perm l') : ptrBlocks (slotPtrs l) = ptrBlocks (slotPtrs l') := by
  unfold ptrBlocks slotPtrs
  exact ((h.map _).map _).sum_eq

theorem slotPtrs_card (l : List TItem) : (ptrBlocks (slotPtrs l)).card = l.length := by
  rw [ptrBlocks_card (by intro q hq; obtain ⟨x, _, rfl⟩ := List.mem_map.mp hq; exact ⟨_, rfl⟩), slotPtrs_length]

/-- The items are in memory. -/
def ItemsIn (m : QueueMemory) (l : List TItem) : Prop := ∀ x ∈ l, m.blocks x.content.1 = some (.item x.bare)

theorem lessIn_eq {m : QueueMemory} {x y : TItem} (hx : m.blocks x.content.1 = some (.item x.bare)) (hy : m.blocks y.content.1 = some (.item y.bare)) :
    m.lessIn (.block x.content.1) (.block y.content.1) = ok (Heap.lessThan x y) := by
  unfold lessIn
  rw [isNull_block, ok_bind]
  simp only [Bool.false_eq_true, if_false]
  rw [isNull_block, ok_bind]
  simp only [Bool.false_eq_true, if_false]
  rw [itemAt_eq hx, ok_bind, itemAt_eq hy, ok_bind]
  rfl

theorem leastChild_eq {m : QueueMemory} {a : Nat} {l : List TItem} {rest : List MemPtr} (hs : m.blocks a = some (.slots (slotPtrs l ++ rest))) (hi : ItemsIn m l) (i : Nat) :
    m.leastChild (.block a) l.length i = Heap.minChild l i := by
  have step : ∀ x y, x < l.length → y < l.length → ∀ (f : Bool → Res Nat), (do
      let p ← m.slotAt (.block a) x
      let q ← m.slotAt (.block a) y
      let less ← m.lessIn p q
      f less) = (do
      let p ← rd l x
      let q ← rd l y
      f (Heap.lessThan p q)) := by
    intro x y hx hy f
    rw [slotAt_eq hs (slotPtrs_get hx), ok_bind, slotAt_eq hs (slotPtrs_get hy), ok_bind, lessIn_eq (hi _ (List.getElem_mem hx)) (hi _ (List.getElem_mem hy)), ok_bind, rd_lt hx, ok_bind, rd_lt hy, ok_bind]
  unfold leastChild Heap.minChild
  simp only
  by_cases h1 : 2 * i + 1 < l.length
  · have hil : i < l.length := by omega
    simp only [h1, if_true]
    rw [step _ _ h1 hil (fun less => ok (if less then 2 * i + 1 else i)), rd_lt h1, ok_bind, rd_lt hil, ok_bind, ok_bind, ok_bind]
    by_cases h2 : 2 * (i + 1) < l.length
    · simp only [h2, if_true]
      exact step _ _ h2 (by split <;> omega) (fun less => ok (if less then 2 * (i + 1) else _))
    · simp only [h2, if_false]
  · simp only [h1, if_false, ok_bind]
    have h2 : ¬ 2 * (i + 1) < l.length := by omega
    simp only [h2, if_false]

theorem minChild_lt {l : List TItem} {i k : Nat} (h : Heap.minChild l i = ok k) (hne : k ≠ i) : i < l.length ∧ k < l.length := by
  by_cases hi : i < l.length
  · obtain ⟨m, hm, e, _⟩ := Heap.minChild_spec l i hi
    rw [e] at h
    cases h
    exact ⟨hi, hm⟩
  · rw [Heap.minChild_out l i (by omega)] at h
    cases h
    exact absurd rfl hne

/-- Sifting in memory is sifting, and changes only the array. -/
theorem siftIn_spec {a : Nat} {rest : List MemPtr} (fuel : Nat) : ∀ {m : QueueMemory} {M : Multiset Nat} {l l' : List TItem} {i : Nat}, m.Within ({a} + M) → m.blocks a = some (.slots (slotPtrs l ++ rest)) →
    ItemsIn m l → (∀ x ∈ l, x.content.1 ∈ M) → Heap.siftDown fuel l i = ok l' →
    ∃ m', siftIn (.block a) l.length fuel m i = ok m' ∧ m'.Within ({a} + M) ∧ m.Keeps m' M ∧ m'.next = m.next ∧ m'.blocks a = some (.slots (slotPtrs l' ++ rest)) := by
  induction fuel with
  | zero => intro m M l l' i _ _ _ _ h; cases h
  | succ fuel ih =>
    intro m M l l' i hw hs hi hM h
    unfold Heap.siftDown at h
    obtain ⟨k, h1, h2⟩ := res_bind_ok h
    unfold siftIn
    rw [leastChild_eq hs hi, h1, ok_bind]
    by_cases hk : k = i
    · rw [if_neg (by simpa using hk)] at h2 ⊢
      cases h2
      exact ⟨m, rfl, hw, Keeps.refl _ _, rfl, hs⟩
    · obtain ⟨hil, hkl⟩ := minChild_lt h1 hk
      rw [if_pos hk] at h2 ⊢
      rw [rd_lt hkl, ok_bind, rd_lt hil, ok_bind, wr_lt hkl, ok_bind, wr_lt (by simpa using hil), ok_bind] at h2
      rw [slotAt_eq hs (slotPtrs_get hkl), ok_bind, slotAt_eq hs (slotPtrs_get hil), ok_bind]
      obtain ⟨m1, a1, w1, b1, k1, n1⟩ := hw.setSlot hs (i := k) (by rw [List.length_append, slotPtrs_length]; omega) (.block l[i].content.1)
      rw [a1, ok_bind]
      rw [slotPtrs_set hkl] at b1
      obtain ⟨m2, a2, w2, b2, k2, n2⟩ := w1.setSlot b1 (i := i) (by rw [List.length_append, slotPtrs_length, List.length_set]; omega) (.block l[k].content.1)
      rw [a2, ok_bind]
      rw [slotPtrs_set (by simpa using hil)] at b2
      have hsub : ∀ x ∈ (l.set k l[i]).set i l[k], x ∈ l := by
        intro x hx
        rcases List.mem_or_eq_of_mem_set hx with hx | rfl
        · rcases List.mem_or_eq_of_mem_set hx with hx | rfl
          · exact hx
          · exact List.getElem_mem hil
        · exact List.getElem_mem hkl
      obtain ⟨m3, a3, w3, k3, n3, b3⟩ := ih (l := (l.set k l[i]).set i l[k]) w2 b2 (fun x hx => by rw [k2.same _ (hM x (hsub x hx)), k1.same _ (hM x (hsub x hx))]; exact hi x (hsub x hx))
        (fun x hx => hM x (hsub x hx)) h2
      rw [List.length_set, List.length_set] at a3
      exact ⟨m3, a3, w3, k1.trans (k2.trans k3), by omega, b3⟩

/-! ## Lists of integers (an entry of the list has its number in the field `textAt` of `NLink`) -/

/-- what is in entry `i` -/
def intLinkOf (ls : List NLink) (i : Nat) (k : NLink) : IntLink := { data := k.textAt, fwd := nlinkPtr ls (i + 1), bwd := nlinkPrev ls i }

/-- The list is in memory. -/
structure IntsIn (m : QueueMemory) (a : Nat) (ls : List NLink) : Prop where
  head : m.blocks a = some (.list { length := ls.length, first := nlinkPtr ls 0, last := nlinkPrev ls ls.length })
  link : ∀ j (hj : j < ls.length), m.blocks ls[j].addr = some (.link (intLinkOf ls j ls[j]))

/-- its blocks -/
def intsBlocks (a : Nat) (ls : List NLink) : Multiset Nat := {a} + ptrBlocks (linkPtrs ls)

theorem IntsIn.keep {m m' : QueueMemory} {a : Nat} {ls : List NLink} (h : IntsIn m a ls) (hs : m.SameOn m' (intsBlocks a ls)) : IntsIn m' a ls := by
  refine ⟨by rw [hs _ (by simp [intsBlocks])]; exact h.head, fun j hj => ?_⟩
  rw [hs _ (Multiset.mem_add.2 (Or.inr (mem_linkPtrs (List.getElem_mem hj))))]
  exact h.link j hj

theorem emptyIntsBack_spec {ls : List NLink} (i : Nat) (hi : i < ls.length) {m : QueueMemory} {M : Multiset Nat} (h : m.Within (ptrBlocks (linkPtrs (ls.take (i + 2))) + M))
    (hc : ∀ j (hj : j < ls.length), j < i + 2 → m.blocks ls[j].addr = some (.link (intLinkOf ls j ls[j]))) :
    ∃ m', m.emptyIntsBack (i + 2) (.block ls[i].addr) = ok m' ∧ m'.Within (ptrBlocks (linkPtrs (ls.take 1)) + M) ∧ m.Keeps m' M ∧ m'.next = m.next := by
  induction i generalizing m with
  | zero =>
    rw [take_links, add_assoc] at h
    obtain ⟨m1, a1, w1, k1, n1⟩ := h.release (nlinkPtr_junk _ _)
    have h0 : m1.blocks ls[0].addr = some (.link (intLinkOf ls 0 ls[0])) := by
      rw [k1.same _ (Multiset.mem_add.2 (Or.inl (mem_take_links hi (by omega))))]; exact hc 0 hi (by omega)
    refine ⟨m1, ?_, w1, k1.mono (Multiset.le_add_left _ _), n1⟩
    rw [emptyIntsBack, isNull_block]
    simp only [ok_bind, Bool.false_eq_true, if_false]
    have e : (intLinkOf ls 0 ls[0]).fwd = nlinkPtr ls 1 := rfl
    have e' : (intLinkOf ls 0 ls[0]).bwd = .null := rfl
    rw [intLinkAt_eq (hc 0 hi (by omega)), ok_bind, e, a1, ok_bind, intLinkAt_eq h0, ok_bind, e']
    rfl
  | succ i ih =>
    rw [take_links, add_assoc] at h
    obtain ⟨m1, a1, w1, k1, n1⟩ := h.release (nlinkPtr_junk _ _)
    have hc1 : ∀ j (hj : j < ls.length), j < i + 2 → m1.blocks ls[j].addr = some (.link (intLinkOf ls j ls[j])) := by
      intro j hj hji
      rw [k1.same _ (Multiset.mem_add.2 (Or.inl (mem_take_links hj hji)))]; exact hc j hj (by omega)
    obtain ⟨m2, a2, w2, k2, n2⟩ := ih (by omega) w1 hc1
    refine ⟨m2, ?_, w2, (k1.mono (Multiset.le_add_left _ _)).trans k2, n2.trans n1⟩
    rw [emptyIntsBack, isNull_block]
    simp only [ok_bind, Bool.false_eq_true, if_false]
    have e : (intLinkOf ls (i + 1) ls[i + 1]).fwd = nlinkPtr ls (i + 2) := rfl
    have e' : (intLinkOf ls (i + 1) ls[i + 1]).bwd = .block ls[i].addr := nlinkPtr_lt (by omega)
    rw [intLinkAt_eq (hc _ hi (by omega)), ok_bind, e, a1, ok_bind, intLinkAt_eq (hc1 _ hi (by omega)), ok_bind, e', a2]

/-- A list is emptied. -/
theorem emptyInts_spec {m : QueueMemory} {M : Multiset Nat} {l : Nat} {ls : List NLink} (h : m.Within (intsBlocks l ls + M)) (hg : IntsIn m l ls) :
    ∃ m', m.emptyInts (.block l) = ok m' ∧ m'.Within ({l} + M) ∧ IntsIn m' l [] ∧ m.Keeps m' M ∧ m'.next = m.next := by
  obtain ⟨m1, a1, w1, b1, k1, n1⟩ := Within.write (a := l) (M := ptrBlocks (linkPtrs ls) + M) (m := m) (h.as (by unfold intsBlocks; ac_rfl))
    (.list { length := ls.length, first := nlinkPtr ls 0, last := .null })
  have hlink : ∀ j (hj : j < ls.length), m1.blocks ls[j].addr = some (.link (intLinkOf ls j ls[j])) := by
    intro j hj
    rw [k1.same _ (Multiset.mem_add.2 (Or.inl (mem_linkPtrs (List.getElem_mem hj))))]
    exact hg.link j hj
  have key : ∃ m2, m1.emptyIntsBack (ls.length + 1) (nlinkPrev ls ls.length) = ok m2 ∧ m2.Within (ptrBlocks (linkPtrs (ls.take 1)) + ({l} + M)) ∧
      m1.Keeps m2 ({l} + M) ∧ m2.next = m1.next := by
    have w1' : m1.Within (ptrBlocks (linkPtrs ls) + ({l} + M)) := w1.as (by ac_rfl)
    cases hn : ls.length with
    | zero =>
      have hnil := List.length_eq_zero_iff.1 hn
      subst hnil
      exact ⟨m1, rfl, w1', Keeps.refl _ _, rfl⟩
    | succ n =>
      have := emptyIntsBack_spec (ls := ls) n (by omega) (M := {l} + M) (m := m1) (by rw [List.take_of_length_le (by omega)]; exact w1') (fun j hj _ => hlink j hj)
      have hp : nlinkPrev ls (n + 1) = .block ls[n].addr := nlinkPtr_lt (by omega)
      rw [hp]
      exact this
  obtain ⟨m2, a2, w2, k2, n2⟩ := key
  rw [take_links, List.take_zero, add_assoc] at w2
  obtain ⟨m3, a3, w3, k3, n3⟩ := w2.release (nlinkPtr_junk _ _)
  have w3' : m3.Within ({l} + M) := w3.as (by simp [linkPtrs, ptrBlocks_nil])
  obtain ⟨m4, a4, w4, b4, k4, n4⟩ := w3'.write (.list { length := 0, first := .null, last := .null })
  refine ⟨m4, ?_, w4, ⟨b4, fun j hj => by simp at hj⟩, ?_, by omega⟩
  · unfold emptyInts
    rw [isNull_block]
    simp only [ok_bind, Bool.false_eq_true, if_false]
    rw [intListAt_eq hg.head, ok_bind]
    simp only [a1, a2, a3, ok_bind, a4]
  · have s1 : M ≤ {l} + M := Multiset.le_add_left _ _
    exact ((((k1.mono (Multiset.le_add_left _ _)).then k2 s1).then k3 (s1.trans (Multiset.le_add_left _ _))).trans k4)

theorem nlinkPtr_append {ls : List NLink} {k : NLink} {i : Nat} (h : i < ls.length) : nlinkPtr (ls ++ [k]) i = nlinkPtr ls i := by
  unfold nlinkPtr
  rw [List.getElem?_append_left h]

theorem nlinkPrev_append {ls : List NLink} {k : NLink} {i : Nat} (h : i ≤ ls.length) : nlinkPrev (ls ++ [k]) i = nlinkPrev ls i := by
  cases i with
  | zero => rfl
  | succ i => exact nlinkPtr_append (by omega)

theorem linkPtrs_append (ls : List NLink) (k : NLink) : ptrBlocks (linkPtrs (ls ++ [k])) = {k.addr} + ptrBlocks (linkPtrs ls) := by
  unfold linkPtrs
  rw [List.map_append, ptrBlocks_append, add_comm, List.map_singleton, ptrBlocks_single]
  rfl

/-- A number is added at the end of a list, if there is memory. -/
theorem appendInt_spec {m : QueueMemory} {M : Multiset Nat} {l : Nat} {ls : List NLink} (h : m.Within (intsBlocks l ls + M)) (hg : IntsIn m l ls) (i : Nat) :
    (∃ m', m.appendInt (.block l) i = ok (ENOMEM, m') ∧ m.fails m.next = true ∧ m'.Within (intsBlocks l ls + M) ∧ IntsIn m' l ls ∧ m.Keeps m' M) ∨
    (∃ m', m.appendInt (.block l) i = ok (0, m') ∧ m.fails m.next = false ∧ m'.Within (intsBlocks l (ls ++ [⟨m.next, i, []⟩]) + M) ∧ IntsIn m' l (ls ++ [⟨m.next, i, []⟩]) ∧ m.Keeps m' M) := by
  unfold appendInt
  rw [isNull_block, ok_bind]
  simp only [Bool.false_eq_true, if_false]
  rcases h.any (.link { data := 0, fwd := .junk, bwd := .junk }) with ⟨m1, a1, f1, w1, k1, n1⟩ | ⟨m1, a1, f1, w1, b1, k1, n1⟩
  · simp only [a1, beq_self_eq_true, if_true]
    exact Or.inl ⟨m1, rfl, f1, w1, hg.keep (k1.same.mono (Multiset.le_add_right _ _)), k1.mono (Multiset.le_add_left _ _)⟩
  refine Or.inr ?_
  simp only [a1, beq_iff_eq, reduceCtorEq, if_false]
  have g1 := hg.keep (k1.same.mono (Multiset.le_add_right _ _))
  rw [intListAt_eq g1.head, ok_bind]
  obtain ⟨m2, a2, w2, b2, k2, n2⟩ := w1.write (.link { data := i, fwd := .null, bwd := nlinkPrev ls ls.length })
  simp only
  rw [a2, ok_bind]
  have g2 : IntsIn m2 l ls := g1.keep (k2.same.mono (Multiset.le_add_right _ _))
  cases hn : ls.length with
  | zero =>
    have hnil := List.length_eq_zero_iff.1 hn
    subst hnil
    simp only [nlinkPtr, List.getElem?_nil]
    rw [isNull_null, ok_bind]
    simp only [if_true]
    obtain ⟨m3, a3, w3, b3, k3, n3⟩ := Within.write (a := l) (M := {m.next} + M) (m := m2) (w2.as (by simp only [intsBlocks, linkPtrs, List.map_nil, ptrBlocks_nil, add_zero]; ac_rfl))
      (.list { length := 0 + 1, first := .block m.next, last := .block m.next })
    rw [a3, ok_bind]
    refine ⟨m3, rfl, f1, w3.as (by rw [intsBlocks, linkPtrs_append]; simp only [linkPtrs, List.map_nil, ptrBlocks_nil, add_zero]; ac_rfl), ⟨b3, ?_⟩, ?_⟩
    · intro j hj
      obtain rfl : j = 0 := by simp at hj; omega
      show m3.blocks m.next = _
      rw [k3.same _ (by simp)]
      exact b2
    · exact (k1.mono (Multiset.le_add_left _ _)).trans ((k2.mono (Multiset.le_add_left _ _)).trans (k3.mono (Multiset.le_add_left _ _)))
  | succ n =>
    rw [nlinkPtr_lt (by omega), isNull_block, ok_bind]
    simp only [Bool.false_eq_true, if_false]
    have hp : nlinkPrev ls (n + 1) = .block ls[n].addr := nlinkPtr_lt (by omega)
    rw [hp, intLinkAt_eq (g2.link n (by omega)), ok_bind]
    have hmem : ls[n].addr ∈ ptrBlocks (linkPtrs ls) := mem_linkPtrs (List.getElem_mem _)
    obtain ⟨R, hR⟩ := Multiset.exists_cons_of_mem hmem
    have hR' : ptrBlocks (linkPtrs ls) = {ls[n].addr} + R := by rw [hR, Multiset.singleton_add]
    obtain ⟨m3, a3, w3, b3, k3, n3⟩ := Within.write (a := ls[n].addr) (M := {m.next} + ({l} + (R + M))) (m := m2) (w2.as (by unfold intsBlocks; rw [hR']; ac_rfl))
      (.link { intLinkOf ls n ls[n] with fwd := .block m.next })
    rw [a3, ok_bind]
    obtain ⟨m4, a4, w4, b4, k4, n4⟩ := Within.write (a := l) (M := {m.next} + ({ls[n].addr} + (R + M))) (m := m3) (w3.as (by ac_rfl))
      (.list { length := n + 1 + 1, first := .block (ls[0]'(by omega)).addr, last := .block m.next })
    rw [a4, ok_bind]
    have nd := w2.nodup
    have hll : (ls ++ [(⟨m.next, i, []⟩ : NLink)]).length = n + 2 := by simp [hn]
    refine ⟨m4, rfl, f1, w4.as (by rw [intsBlocks, linkPtrs_append, hR']; dsimp only; ac_rfl), ⟨?_, ?_⟩, ?_⟩
    · rw [b4, hll, nlinkPtr_append (by omega), nlinkPtr_lt (by omega)]
      congr 3
      show _ = nlinkPtr _ (n + 1)
      unfold nlinkPtr
      rw [List.getElem?_append_right (by omega)]
      simp [hn]
    · intro j hj
      rw [hll] at hj
      by_cases hjn : j = n + 1
      · subst hjn
        have e1 : (ls ++ [(⟨m.next, i, []⟩ : NLink)])[n + 1]'(by omega) = ⟨m.next, i, []⟩ := by
          rw [List.getElem_append_right (by omega)]
          simp [hn]
        rw [e1]
        show m4.blocks m.next = _
        rw [k4.same _ (by simp), k3.same _ (by simp), b2]
        unfold intLinkOf
        rw [nlinkPtr_ge (by omega), nlinkPrev_append (by omega), hn]
      · have hjl : j < ls.length := by omega
        rw [List.getElem_append_left hjl]
        have hmj : ls[j].addr ∈ ptrBlocks (linkPtrs ls) := mem_linkPtrs (List.getElem_mem _)
        by_cases hj2 : j = n
        · subst hj2
          rw [k4.same _ (by simp), b3]
          unfold intLinkOf
          rw [nlinkPrev_append (by omega)]
          congr 3
          unfold nlinkPtr
          rw [List.getElem?_append_right (by omega)]
          simp [hn]
        · have hne : ls[j].addr ≠ ls[n].addr := by
            intro hc
            have nd' : (ptrBlocks (linkPtrs ls)).Nodup := Multiset.nodup_of_le (by unfold intsBlocks; exact (Multiset.le_add_left _ _).trans ((Multiset.le_add_right _ _).trans (Multiset.le_add_left _ _))) nd
            have e : ptrBlocks (linkPtrs ls) = ((ls.map NLink.addr : List Nat) : Multiset Nat) := by
              clear * -
              induction ls with
              | nil => rfl
              | cons k ls ih =>
                show ptrBlocks (MemPtr.block k.addr :: linkPtrs ls) = _
                rw [ptrBlocks_cons, ih]
                rfl
            rw [e, Multiset.coe_nodup] at nd'
            have := (nd'.getElem_inj_iff (i := j) (j := n) (hi := by simpa using hjl) (hj := by simp; omega)).mp (by simpa using hc)
            exact hj2 this
          have hmr : ls[j].addr ∈ R := by
            rw [hR'] at hmj
            rcases Multiset.mem_add.mp hmj with h | h
            · exact absurd (Multiset.mem_singleton.mp h) hne
            · exact h
          rw [k4.same _ (by simp [hmr]), k3.same _ (by simp [hmr]), g2.link j hjl]
          unfold intLinkOf
          rw [nlinkPrev_append (by omega), nlinkPtr_append (by omega)]
    · have le1 : M ≤ {m.next} + ({l} + (R + M)) := ((Multiset.le_add_left _ _).trans (Multiset.le_add_left _ _)).trans (Multiset.le_add_left _ _)
      have le2 : M ≤ {m.next} + ({ls[n].addr} + (R + M)) := ((Multiset.le_add_left _ _).trans (Multiset.le_add_left _ _)).trans (Multiset.le_add_left _ _)
      exact (k1.mono (Multiset.le_add_left _ _)).trans ((k2.mono (Multiset.le_add_left _ _)).trans ((k3.mono le1).trans (k4.mono le2)))

end Nip
