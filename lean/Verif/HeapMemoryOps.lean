import Verif.HeapMemoryLemmas

/-!
# Lemmas about the memory of queues: the calls
-/

namespace Nip

open Res Spec Store

/-! ## Forgetting the addresses -/

/-- the queue without addresses -/
def bareHeap (H : Heap (Nat × Nat)) : Heap Nat := { items := H.items.map TItem.bare, allocated := H.allocated, bytes := H.bytes, heapified := H.heapified, updated := H.updated }

theorem rd_bare {l : List TItem} {i : Nat} (h : i < l.length) : rd (l.map TItem.bare) i = ok (TItem.bare l[i]) := by
  rw [rd_lt (by simpa using h)]
  simp

theorem minChild_bare (l : List TItem) (i : Nat) : Heap.minChild (l.map TItem.bare) i = Heap.minChild l i := by
  have step : ∀ x y, x < l.length → y < l.length → ∀ (f : Bool → Res Nat), (do
      let p ← rd (l.map TItem.bare) x
      let q ← rd (l.map TItem.bare) y
      f (Heap.lessThan p q)) = (do
      let p ← rd l x
      let q ← rd l y
      f (Heap.lessThan p q)) := by
    intro x y hx hy f
    rw [rd_bare hx, ok_bind, rd_bare hy, ok_bind, rd_lt hx, ok_bind, rd_lt hy, ok_bind]
    rfl
  unfold Heap.minChild
  simp only [List.length_map]
  by_cases h1 : 2 * i + 1 < l.length
  · have hil : i < l.length := by omega
    simp only [h1, if_true]
    rw [step _ _ h1 hil (fun less => ok (if less then 2 * i + 1 else i)), rd_lt h1, ok_bind, rd_lt hil, ok_bind, ok_bind, ok_bind]
    by_cases h2 : 2 * (i + 1) < l.length
    · simp only [h2, if_true]
      exact step _ _ h2 (by split <;> omega) (fun less => ok (if less then 2 * (i + 1) else _))
    · simp only [h2, if_false]
  · simp only [h1, if_false, ok_bind]
    have h2 : ¬ 2 * (i + 1) < l.length := by omega
    simp only [h2, if_false]

theorem siftDown_bare (fuel : Nat) : ∀ {l l' : List TItem} {i : Nat}, Heap.siftDown fuel l i = ok l' → Heap.siftDown fuel (l.map TItem.bare) i = ok (l'.map TItem.bare) := by
  induction fuel with
  | zero => intro l l' i h; cases h
  | succ fuel ih =>
    intro l l' i h
    unfold Heap.siftDown at h ⊢
    obtain ⟨k, h1, h2⟩ := res_bind_ok h
    rw [minChild_bare, h1, ok_bind]
    by_cases hk : k = i
    · rw [if_neg (by simpa using hk)] at h2 ⊢
      cases h2
      rfl
    · obtain ⟨hil, hkl⟩ := minChild_lt h1 hk
      rw [if_pos hk] at h2 ⊢
      rw [rd_lt hkl, ok_bind, rd_lt hil, ok_bind, wr_lt hkl, ok_bind, wr_lt (by simpa using hil), ok_bind] at h2
      rw [rd_bare hkl, ok_bind, rd_bare hil, ok_bind, wr_lt (by simpa using hkl), ok_bind, wr_lt (by simpa using hil), ok_bind, ← List.map_set, ← List.map_set]
      exact ih h2

theorem minHeapify_bare {l l' : List TItem} {i : Nat} (h : Heap.minHeapify l i = ok l') : Heap.minHeapify (l.map TItem.bare) i = ok (l'.map TItem.bare) := by
  unfold Heap.minHeapify at h ⊢
  rw [List.length_map]
  exact siftDown_bare _ h

/-- Two loops in step. -/
theorem loopDown_sim {S T : Type} (R : S → T → Prop) {f : Nat → S → Res S} {g : Nat → T → Res T} (step : ∀ i s t t', R s t → g i t = ok t' → ∃ s', f i s = ok s' ∧ R s' t') (n : Nat) :
    ∀ {s : S} {t t' : T}, R s t → loopDown n g t = ok t' → ∃ s', loopDown n f s = ok s' ∧ R s' t' := by
  induction n with
  | zero => intro s t t' hR h; cases h; exact ⟨s, rfl, hR⟩
  | succ n ih =>
    intro s t t' hR h
    rw [loopDown_succ] at h
    obtain ⟨t1, h1, h2⟩ := res_bind_ok h
    obtain ⟨s1, a1, r1⟩ := step n s t t1 hR h1
    obtain ⟨s2, a2, r2⟩ := ih r1 h2
    refine ⟨s2, ?_, r2⟩
    rw [loopDown_succ, a1]
    exact a2

theorem foldl_bare (u : List Nat) : ∀ {l l' : List TItem}, u.foldlM (fun items i => Heap.minHeapify items i) l = ok l' → u.foldlM (fun items i => Heap.minHeapify items i) (l.map TItem.bare) = ok (l'.map TItem.bare) := by
  induction u with
  | nil => intro l l' h; cases h; rfl
  | cons i u ih =>
    intro l l' h
    rw [List.foldlM_cons] at h ⊢
    obtain ⟨l1, h1, h2⟩ := res_bind_ok h
    rw [minHeapify_bare h1, ok_bind]
    exact ih h2

theorem build_bare {H H' : Heap (Nat × Nat)} (h : H.build = ok H') : (bareHeap H).build = ok (bareHeap H') := by
  unfold Heap.build at h ⊢
  obtain ⟨l, h1, h2⟩ := res_bind_ok h
  cases h2
  have : (if !(bareHeap H).heapified then loopDown (if (bareHeap H).items.length = 0 then 0 else ((bareHeap H).items.length - 2) / 2 + 1) (fun i items => Heap.minHeapify items i) (bareHeap H).items
      else (bareHeap H).updated.foldlM (fun items i => Heap.minHeapify items i) (bareHeap H).items) = ok (l.map TItem.bare) := by
    simp only [bareHeap, List.length_map]
    split at h1
    · rename_i hh
      rw [if_pos hh]
      obtain ⟨s, a, rfl⟩ := loopDown_sim (fun (s : List (HeapItem Nat)) (t : List TItem) => s = t.map TItem.bare) (f := fun i items => Heap.minHeapify items i) (g := fun i items => Heap.minHeapify items i)
        (fun i s t t' hR hg => ⟨_, by rw [hR]; exact minHeapify_bare hg, rfl⟩) _ rfl h1
      exact a
    · rename_i hh
      rw [if_neg hh]
      exact foldl_bare _ h1
  erw [this, ok_bind]
  rfl

theorem extractMin_bare {H H' : Heap (Nat × Nat)} {c : Option (Nat × Nat)} (h : H.extractMin = ok (c, H')) : (bareHeap H).extractMin = ok (c.map Prod.snd, bareHeap H') := by
  unfold Heap.extractMin at h ⊢
  simp only [bareHeap, List.length_map]
  by_cases h0 : H.items.length < 1
  · rw [if_pos h0] at h ⊢
    cases h
    rfl
  · rw [if_neg h0] at h ⊢
    rw [rd_lt (by omega), ok_bind, rd_lt (by omega), ok_bind, wr_lt (by omega), ok_bind] at h
    obtain ⟨l, h1, h2⟩ := res_bind_ok h
    cases h2
    rw [rd_bare (by omega), ok_bind, rd_bare (by omega), ok_bind, wr_lt (by rw [List.length_map]; omega), ok_bind, ← List.map_set, ← List.map_dropLast, minHeapify_bare h1, ok_bind]
    rfl

/-! ## A queue in memory -/

/-- where a queue is -/
structure QEntry where
  addr : Nat
  slotsAt : Nat
  listAt : Nat
  links : List NLink

/-- its blocks -/
def QEntry.blocks (e : QEntry) (l : List TItem) : Multiset Nat := {e.addr} + ({e.slotsAt} + (intsBlocks e.listAt e.links + ptrBlocks (slotPtrs l)))

/-- The queue is in memory. -/
structure QGood (m : QueueMemory) (e : QEntry) (H : Heap (Nat × Nat)) : Prop where
  cell : m.blocks e.addr = some (.heap { allocated := H.allocated, items := .block e.slotsAt, size := H.items.length, heapified := H.heapified, updated := .block e.listAt })
  slots : m.blocks e.slotsAt = some (.slots (slotPtrs H.items ++ List.replicate (H.allocated - H.items.length) .null))
  room : H.items.length ≤ H.allocated
  items : ItemsIn m H.items
  ints : IntsIn m e.listAt e.links
  noted : H.updated = e.links.map NLink.textAt

theorem QGood.keep {m m' : QueueMemory} {e : QEntry} {H : Heap (Nat × Nat)} (h : QGood m e H) (hs : m.SameOn m' (e.blocks H.items)) : QGood m' e H := by
  refine ⟨by rw [hs _ (by simp [QEntry.blocks])]; exact h.cell, by rw [hs _ (by simp [QEntry.blocks])]; exact h.slots, h.room, ?_, ?_, h.noted⟩
  · intro x hx
    rw [hs _ (by simp [QEntry.blocks, mem_slotPtrs hx])]
    exact h.items x hx
  · exact h.ints.keep (fun b hb => hs b (by simp only [QEntry.blocks, Multiset.mem_add]; exact Or.inr (Or.inr (Or.inl hb))))

/-- Sifting. -/
theorem heapifyQueue_spec {m : QueueMemory} {M : Multiset Nat} {e : QEntry} {H : Heap (Nat × Nat)} {l' : List TItem} {i : Nat} (h : m.Within (e.blocks H.items + M)) (hg : QGood m e H)
    (hp : Heap.minHeapify H.items i = ok l') :
    ∃ m', m.heapifyQueue (.block e.addr) i = ok m' ∧ m'.Within (e.blocks l' + M) ∧ m.Keeps m' M ∧ QGood m' e { H with items := l' } := by
  obtain ⟨l'', h1, hperm⟩ := Heap.minHeapify_perm H.items i
  rw [h1] at hp
  cases hp
  obtain ⟨m1, a1, w1, k1, n1, b1⟩ := siftIn_spec (H.items.length + 1) (a := e.slotsAt) (M := {e.addr} + (intsBlocks e.listAt e.links + (ptrBlocks (slotPtrs H.items) + M))) (m := m) (h.as (by unfold QEntry.blocks; ac_rfl))
    hg.slots hg.items (fun x hx => by simp [mem_slotPtrs hx]) h1
  refine ⟨m1, ?_, w1.as (by unfold QEntry.blocks; rw [slotPtrs_perm hperm]; ac_rfl), k1.mono (((Multiset.le_add_left _ _).trans (Multiset.le_add_left _ _)).trans (Multiset.le_add_left _ _)), ?_⟩
  · unfold heapifyQueue
    rw [queueAt_eq hg.cell, ok_bind]
    exact a1
  · refine ⟨?_, ?_, ?_, ?_, ?_, hg.noted⟩
    · rw [k1.same _ (by simp)]
      simpa [hperm.length_eq] using hg.cell
    · simpa [hperm.length_eq] using b1
    · simpa [hperm.length_eq] using hg.room
    · intro x hx
      rw [k1.same _ (by simp [mem_slotPtrs (hperm.subset hx)])]
      exact hg.items x (hperm.subset hx)
    · exact hg.ints.keep (k1.same.mono ((Multiset.le_add_right _ _).trans (Multiset.le_add_left _ _)))

/-- Sifting what was noted. -/
theorem heapifyNoted_spec {M : Multiset Nat} {e : QEntry} (d : Nat) : ∀ {m : QueueMemory} {H : Heap (Nat × Nat)} {l' : List TItem} (j : Nat), e.links.length = j + d → m.Within (e.blocks H.items + M) → QGood m e H →
    ((e.links.drop j).map NLink.textAt).foldlM (fun items i => Heap.minHeapify items i) H.items = ok l' →
    ∃ m', heapifyNoted (.block e.addr) (d + 1) m (nlinkPtr e.links j) = ok m' ∧ m'.Within (e.blocks l' + M) ∧ m.Keeps m' M ∧ QGood m' e { H with items := l' } := by
  induction d with
  | zero =>
    intro m H l' j hj hw hg h
    rw [List.drop_of_length_le (by omega)] at h
    cases h
    refine ⟨m, ?_, hw, Keeps.refl _ _, hg⟩
    unfold heapifyNoted
    rw [nlinkPtr_ge (by omega), isNull_null, ok_bind]
    rfl
  | succ d ih =>
    intro m H l' j hj hw hg h
    have hjl : j < e.links.length := by omega
    rw [List.drop_eq_getElem_cons hjl, List.map_cons, List.foldlM_cons] at h
    obtain ⟨l1, h1, h2⟩ := res_bind_ok h
    obtain ⟨m1, a1, w1, k1, g1⟩ := heapifyQueue_spec hw hg h1
    obtain ⟨m2, a2, w2, k2, g2⟩ := ih (H := { H with items := l1 }) (j + 1) (by omega) w1 g1 h2
    refine ⟨m2, ?_, w2, k1.trans k2, g2⟩
    unfold heapifyNoted
    rw [nlinkPtr_lt hjl, isNull_block, ok_bind]
    simp only [Bool.false_eq_true, if_false]
    have e1 : (intLinkOf e.links j e.links[j]).data = e.links[j].textAt := rfl
    have e2 : (intLinkOf e.links j e.links[j]).fwd = nlinkPtr e.links (j + 1) := rfl
    rw [intLinkAt_eq (hg.ints.link j hjl), ok_bind, e1, a1, ok_bind, intLinkAt_eq (g1.ints.link j hjl), ok_bind, e2, a2]

/-- Building. -/
theorem buildQueue_spec {m : QueueMemory} {M : Multiset Nat} {e : QEntry} {H : Heap (Nat × Nat)} (h : m.Within (e.blocks H.items + M)) (hg : QGood m e H) :
    ∃ H' m', H.build = ok H' ∧ m.buildQueue (.block e.addr) = ok m' ∧ m'.Within ({ e with links := [] }.blocks H'.items + M) ∧ m.Keeps m' M ∧ QGood m' { e with links := [] } H' ∧
      H'.allocated = H.allocated ∧ H'.items.length = H.items.length := by
  obtain ⟨H', hb, hperm, hal, hby, hup, hhe⟩ := Heap.build_perm H
  refine ⟨H', ?_⟩
  have hb' := hb
  unfold Heap.build at hb
  obtain ⟨l, h1, h2⟩ := res_bind_ok hb
  cases h2
  have key : ∃ m1, (if !H.heapified then loopDown (if H.items.length = 0 then 0 else (H.items.length - 2) / 2 + 1) (fun i m => m.heapifyQueue (.block e.addr) i) m
      else do
        let h ← m.intListAt (.block e.listAt)
        heapifyNoted (.block e.addr) (h.length + 1) m h.first) = ok m1 ∧ m1.Within (e.blocks l + M) ∧ m.Keeps m1 M ∧ QGood m1 e { H with items := l } := by
    split at h1
    · rename_i hh
      rw [if_pos hh]
      exact loopDown_sim (fun (s : QueueMemory) (t : List TItem) => s.Within (e.blocks t + M) ∧ m.Keeps s M ∧ QGood s e { H with items := t }) (f := fun i m => m.heapifyQueue (.block e.addr) i)
        (fun i s t t' hR hgi => by
          obtain ⟨w, k, g⟩ := hR
          obtain ⟨m1, a1, w1, k1, g1⟩ := heapifyQueue_spec (H := { H with items := t }) w g hgi
          exact ⟨m1, a1, w1, k.trans k1, g1⟩) _ ⟨h, Keeps.refl _ _, hg⟩ h1
    · rename_i hh
      rw [if_neg hh, intListAt_eq hg.ints.head, ok_bind]
      rw [hg.noted] at h1
      exact heapifyNoted_spec e.links.length 0 (by omega) h hg (by simpa using h1)
  obtain ⟨m1, a1, w1, k1, g1⟩ := key
  obtain ⟨m2, a2, w2, i2, k2, n2⟩ := emptyInts_spec (m := m1) (l := e.listAt) (ls := e.links) (M := {e.addr} + ({e.slotsAt} + (ptrBlocks (slotPtrs l) + M))) (w1.as (by unfold QEntry.blocks; ac_rfl)) g1.ints
  obtain ⟨m3, a3, w3, b3, k3, n3⟩ := Within.write (a := e.addr) (m := m2) (M := {e.listAt} + ({e.slotsAt} + (ptrBlocks (slotPtrs l) + M))) (w2.as (by ac_rfl))
    (.heap { allocated := H.allocated, items := .block e.slotsAt, size := l.length, heapified := true, updated := .block e.listAt })
  have c2 : m2.blocks e.addr = _ := (k2.same _ (by simp)).trans g1.cell
  refine ⟨m3, hb', ?_, w3.as (by simp only [QEntry.blocks, intsBlocks, linkPtrs, List.map_nil, ptrBlocks_nil, add_zero]; ac_rfl), ?_, ?_, rfl, hperm.length_eq⟩
  · unfold buildQueue
    rw [isNull_block, ok_bind]
    simp only [Bool.false_eq_true, if_false]
    rw [queueAt_eq hg.cell, ok_bind]
    simp only
    erw [a1, ok_bind]
    rw [a2, ok_bind, queueAt_eq c2, ok_bind]
    exact a3
  · have le1 : M ≤ {e.addr} + ({e.slotsAt} + (ptrBlocks (slotPtrs l) + M)) := ((Multiset.le_add_left _ _).trans (Multiset.le_add_left _ _)).trans (Multiset.le_add_left _ _)
    have le2 : M ≤ {e.listAt} + ({e.slotsAt} + (ptrBlocks (slotPtrs l) + M)) := ((Multiset.le_add_left _ _).trans (Multiset.le_add_left _ _)).trans (Multiset.le_add_left _ _)
    exact k1.trans ((k2.mono le1).trans (k3.mono le2))
  · refine ⟨b3, ?_, g1.room, ?_, ?_, rfl⟩
    · rw [k3.same _ (by simp), k2.same _ (by simp)]
      exact g1.slots
    · intro x hx
      rw [k3.same _ (by simp [mem_slotPtrs hx]), k2.same _ (by simp [mem_slotPtrs hx])]
      exact g1.items x hx
    · exact i2.keep (k3.same.mono (by simp [intsBlocks, linkPtrs, ptrBlocks_nil]))

/-- Inserting with room. -/
theorem insertQueue_spec {m : QueueMemory} {M : Multiset Nat} {e : QEntry} {H : Heap (Nat × Nat)} (h : m.Within (e.blocks H.items + M)) (hg : QGood m e H) (hr : H.items.length < H.allocated)
    (ptr : Nat) (pk sk : Nat → Int) (c : Nat) :
    (∃ m', insertQueue ptr pk sk m (.block e.addr) c = ok (ENOMEM, m') ∧ m.fails m.next = true ∧ m'.Within (e.blocks H.items + M) ∧ m.Keeps m' M ∧ QGood m' e H) ∨
    (∃ m', insertQueue ptr pk sk m (.block e.addr) c = ok (0, m') ∧ m.fails m.next = false ∧
      m'.Within (e.blocks (H.items ++ [{ content := (m.next, c), primary := pk c, secondary := sk c }]) + M) ∧ m.Keeps m' M ∧
      QGood m' e { H with items := H.items ++ [{ content := (m.next, c), primary := pk c, secondary := sk c }], heapified := false }) := by
  unfold insertQueue
  rcases h.any (.item { content := c, primary := pk c, secondary := sk c }) with ⟨m1, a1, f1, w1, k1, n1⟩ | ⟨m1, a1, f1, w1, b1, k1, n1⟩
  · simp only [a1, beq_self_eq_true, if_true]
    exact Or.inl ⟨m1, rfl, f1, w1, k1.mono (Multiset.le_add_left _ _), hg.keep (k1.same.mono (Multiset.le_add_right _ _))⟩
  refine Or.inr ?_
  have g1 := hg.keep (k1.same.mono (Multiset.le_add_right _ _))
  simp only [a1, beq_iff_eq, reduceCtorEq, if_false]
  rw [queueAt_eq g1.cell, ok_bind]
  simp only
  rw [if_neg (by omega), ok_bind]
  simp only [Bool.not_true, Bool.false_eq_true, if_false]
  rw [queueAt_eq g1.cell, ok_bind]
  simp only
  obtain ⟨k, hk⟩ : ∃ k, H.allocated - H.items.length = k + 1 := ⟨H.allocated - H.items.length - 1, by omega⟩
  obtain ⟨m2, a2, w2, b2, k2, n2⟩ := Within.setSlot (a := e.slotsAt) (M := {m.next} + ({e.addr} + (intsBlocks e.listAt e.links + (ptrBlocks (slotPtrs H.items) + M)))) (m := m1) (w1.as (by unfold QEntry.blocks; ac_rfl))
    g1.slots (i := H.items.length) (by rw [List.length_append, slotPtrs_length, List.length_replicate]; omega) (.block m.next)
  rw [a2, ok_bind]
  obtain ⟨m3, a3, w3, b3, k3, n3⟩ := Within.write (a := e.addr) (M := {m.next} + ({e.slotsAt} + (intsBlocks e.listAt e.links + (ptrBlocks (slotPtrs H.items) + M)))) (m := m2) (w2.as (by ac_rfl))
    (.heap { allocated := H.allocated, items := .block e.slotsAt, size := H.items.length + 1, heapified := false, updated := .block e.listAt })
  rw [a3, ok_bind]
  refine ⟨m3, rfl, f1, w3.as ?_, ?_, ?_⟩
  · unfold QEntry.blocks
    have : ptrBlocks (slotPtrs (H.items ++ [({ content := (m.next, c), primary := pk c, secondary := sk c } : TItem)])) = {m.next} + ptrBlocks (slotPtrs H.items) := by
      unfold slotPtrs
      rw [List.map_append, ptrBlocks_append, add_comm, List.map_singleton, ptrBlocks_single]
      rfl
    rw [this]
    ac_rfl
  · have le1 : M ≤ {m.next} + ({e.addr} + (intsBlocks e.listAt e.links + (ptrBlocks (slotPtrs H.items) + M))) := (((Multiset.le_add_left _ _).trans (Multiset.le_add_left _ _)).trans (Multiset.le_add_left _ _)).trans (Multiset.le_add_left _ _)
    have le2 : M ≤ {m.next} + ({e.slotsAt} + (intsBlocks e.listAt e.links + (ptrBlocks (slotPtrs H.items) + M))) := (((Multiset.le_add_left _ _).trans (Multiset.le_add_left _ _)).trans (Multiset.le_add_left _ _)).trans (Multiset.le_add_left _ _)
    exact (k1.mono (Multiset.le_add_left _ _)).trans ((k2.mono le1).trans (k3.mono le2))
  · refine ⟨?_, ?_, ?_, ?_, ?_, hg.noted⟩
    · simpa using b3
    · rw [k3.same _ (by simp), b2, hk]
      congr 2
      simp only [List.length_append, List.length_singleton]
      rw [show H.allocated - (H.items.length + 1) = k by omega, List.replicate_succ, List.set_append_right _ _ (by rw [slotPtrs_length])]
      simp [slotPtrs]
    · simp only [List.length_append, List.length_singleton]; omega
    · intro x hx
      rcases List.mem_append.mp hx with hx | hx
      · rw [k3.same _ (by simp [mem_slotPtrs hx]), k2.same _ (by simp [mem_slotPtrs hx])]
        exact g1.items x hx
      · obtain rfl := List.mem_singleton.mp hx
        show m3.blocks m.next = _
        rw [k3.same _ (by simp), k2.same _ (by simp), b1]
        rfl
    · exact (g1.ints.keep (k2.same.mono (((Multiset.le_add_right _ _).trans (Multiset.le_add_left _ _)).trans (Multiset.le_add_left _ _)))).keep
        (k3.same.mono (((Multiset.le_add_right _ _).trans (Multiset.le_add_left _ _)).trans (Multiset.le_add_left _ _)))

/-- Replacing. -/
theorem setQueue_spec {m : QueueMemory} {M : Multiset Nat} {e : QEntry} {H : Heap (Nat × Nat)} (h : m.Within (e.blocks H.items + M)) (hg : QGood m e H) (pk sk : Nat → Int) (i c : Nat) (hi : i < H.items.length) :
    ∃ m' ls b, setQueue pk sk m (.block e.addr) i c = ok (0, m') ∧ m.fails m.next = !b ∧
      m'.Within ({ e with links := ls }.blocks (H.items.set i { content := (H.items[i].content.1, c), primary := pk c, secondary := sk c }) + M) ∧ m.Keeps m' M ∧
      QGood m' { e with links := ls } { H with items := H.items.set i { content := (H.items[i].content.1, c), primary := pk c, secondary := sk c }, updated := if b then H.updated ++ [i] else H.updated } := by
  set x : TItem := { content := (H.items[i].content.1, c), primary := pk c, secondary := sk c } with hx
  have hsl : slotPtrs (H.items.set i x) = slotPtrs H.items := by
    unfold slotPtrs
    rw [List.map_set]
    apply List.ext_getElem
    · simp
    · intro n h1 h2
      rw [List.getElem_set]
      split
      · rename_i hin
        subst hin
        simp [hx]
      · rfl
  have herase : ptrBlocks (slotPtrs H.items) = {H.items[i].content.1} + ptrBlocks (slotPtrs (H.items.eraseIdx i)) := by
    rw [← slotPtrs_perm (List.getElem_cons_eraseIdx_perm hi)]
    unfold slotPtrs
    rw [List.map_cons, ptrBlocks_cons]
    rfl
  obtain ⟨m1, a1, w1, b1, k1, n1⟩ := Within.write (a := H.items[i].content.1) (m := m) (M := {e.addr} + ({e.slotsAt} + (intsBlocks e.listAt e.links + (ptrBlocks (slotPtrs (H.items.eraseIdx i)) + M))))
    (h.as (by unfold QEntry.blocks; rw [herase]; ac_rfl)) (.item { content := c, primary := pk c, secondary := sk c })
  have i1 : IntsIn m1 e.listAt e.links := hg.ints.keep (k1.same.mono (((Multiset.le_add_right _ _).trans (Multiset.le_add_left _ _)).trans (Multiset.le_add_left _ _)))
  have it1 : ItemsIn m1 (H.items.set i x) := by
    intro y hy
    obtain ⟨j, hj, rfl⟩ := List.getElem_of_mem hy
    rw [List.length_set] at hj
    rw [List.getElem_set]
    split
    · rename_i hij
      exact b1
    · rename_i hij
      have hm : H.items[j] ∈ H.items.eraseIdx i := List.mem_eraseIdx_iff_getElem.mpr ⟨j, hj, fun hc => hij hc.symm, rfl⟩
      rw [k1.same _ (by simp [mem_slotPtrs hm])]
      exact hg.items _ (List.getElem_mem hj)
  have g1 : QGood m1 e { H with items := H.items.set i x } := by
    refine ⟨?_, ?_, by simpa using hg.room, it1, i1, hg.noted⟩
    · rw [k1.same _ (by simp)]
      simpa using hg.cell
    · rw [k1.same _ (by simp), hsl]
      simpa using hg.slots
  have w1' : m1.Within (e.blocks (H.items.set i x) + M) := w1.as (by unfold QEntry.blocks; rw [hsl, herase]; ac_rfl)
  have le1 : M ≤ {e.addr} + ({e.slotsAt} + (intsBlocks e.listAt e.links + (ptrBlocks (slotPtrs (H.items.eraseIdx i)) + M))) :=
    (((Multiset.le_add_left _ _).trans (Multiset.le_add_left _ _)).trans (Multiset.le_add_left _ _)).trans (Multiset.le_add_left _ _)
  have head : ∀ r m2, m1.appendInt (.block e.listAt) i = ok (r, m2) → setQueue pk sk m (.block e.addr) i c = ok (0, m2) := by
    intro r m2 ha
    unfold setQueue
    rw [queueAt_eq hg.cell, ok_bind]
    simp only
    rw [if_neg (by omega), slotAt_eq hg.slots (slotPtrs_get hi), ok_bind, itemAt_eq (hg.items _ (List.getElem_mem hi)), ok_bind, a1, ok_bind, ha, ok_bind]
  set N : Multiset Nat := {e.addr} + ({e.slotsAt} + (ptrBlocks (slotPtrs (H.items.set i x)) + M)) with hN
  have leN : M ≤ N := ((Multiset.le_add_left _ _).trans (Multiset.le_add_left _ _)).trans (Multiset.le_add_left _ _)
  have keepQ : ∀ {m2 : QueueMemory}, m1.Keeps m2 N → m2.blocks e.addr = m1.blocks e.addr ∧ m2.blocks e.slotsAt = m1.blocks e.slotsAt ∧ ItemsIn m2 (H.items.set i x) := by
    intro m2 k
    refine ⟨k.same _ (by simp [hN]), k.same _ (by simp [hN]), fun y hy => ?_⟩
    rw [k.same _ (by simp [hN, mem_slotPtrs hy])]
    exact it1 y hy
  rcases appendInt_spec (m := m1) (M := N) (w1'.as (by unfold QEntry.blocks; rw [hN]; ac_rfl)) i1 i with ⟨m2, a2, f2, w2, i2, k2⟩ | ⟨m2, a2, f2, w2, i2, k2⟩
  · obtain ⟨q1, q2, q3⟩ := keepQ k2
    refine ⟨m2, e.links, false, head _ _ a2, by rw [← k1.fails, ← n1]; exact f2, w2.as (by unfold QEntry.blocks; rw [hN]; ac_rfl), (k1.mono le1).trans (k2.mono leN), ?_⟩
    exact ⟨q1.trans g1.cell, q2.trans g1.slots, g1.room, q3, i2, hg.noted⟩
  · obtain ⟨q1, q2, q3⟩ := keepQ k2
    refine ⟨m2, e.links ++ [⟨m1.next, i, []⟩], true, head _ _ a2, by rw [← k1.fails, ← n1]; exact f2, w2.as (by unfold QEntry.blocks; rw [hN]; ac_rfl), (k1.mono le1).trans (k2.mono leN), ?_⟩
    refine ⟨q1.trans g1.cell, q2.trans g1.slots, g1.room, q3, i2, ?_⟩
    simp [hg.noted]

/-- Extracting. -/
theorem extractQueue_spec {m : QueueMemory} {M : Multiset Nat} {e : QEntry} {H : Heap (Nat × Nat)} (h : m.Within (e.blocks H.items + M)) (hg : QGood m e H) :
    ∃ c H' m', H.extractMin = ok (c, H') ∧ m.extractQueue (.block e.addr) = ok (c.map Prod.snd, m') ∧ m'.Within (e.blocks H'.items + M) ∧ m.Keeps m' M ∧ QGood m' e H' ∧
      H'.allocated = H.allocated ∧ H'.items.length = H.items.length - 1 := by
  by_cases h0 : H.items.length < 1
  · refine ⟨none, H, m, by unfold Heap.extractMin; rw [if_pos h0], ?_, h, Keeps.refl _ _, hg, rfl, by omega⟩
    unfold extractQueue
    rw [queueAt_eq hg.cell, ok_bind]
    simp only
    rw [if_pos h0]
    rfl
  · have hlen : 0 < H.items.length := by omega
    set l : List TItem := (H.items.set 0 (H.items[H.items.length - 1]'(by omega))).dropLast with hl
    have hll : l.length = H.items.length - 1 := by simp [hl]
    have hperm : (H.items[0] :: l).Perm H.items := Heap.dropLast_set_perm H.items hlen
    obtain ⟨l', h1, hp1⟩ := Heap.minHeapify_perm l 0
    have hsub : ∀ x ∈ l, x ∈ H.items := fun x hx => hperm.subset (List.mem_cons_of_mem _ hx)
    have hblk : ptrBlocks (slotPtrs H.items) = {H.items[0].content.1} + ptrBlocks (slotPtrs l) := by
      rw [← slotPtrs_perm hperm]
      unfold slotPtrs
      rw [List.map_cons, ptrBlocks_cons]
      rfl
    refine ⟨some H.items[0].content, { H with items := l' }, ?_⟩
    have hpure : H.extractMin = ok (some H.items[0].content, { H with items := l' }) := by
      unfold Heap.extractMin
      rw [if_neg h0, rd_lt hlen, ok_bind, rd_lt (by omega), ok_bind, wr_lt hlen, ok_bind, ← hl, h1, ok_bind]
    obtain ⟨m1, a1, w1, b1, k1, n1⟩ := Within.setSlot (a := e.slotsAt) (m := m) (M := {e.addr} + (intsBlocks e.listAt e.links + (ptrBlocks (slotPtrs H.items) + M))) (h.as (by unfold QEntry.blocks; ac_rfl))
      hg.slots (i := 0) (by rw [List.length_append, slotPtrs_length]; omega) (.block (H.items[H.items.length - 1]'(by omega)).content.1)
    obtain ⟨m2, a2, w2, b2, k2, n2⟩ := w1.setSlot b1 (i := H.items.length - 1) (by rw [List.length_set, List.length_append, slotPtrs_length]; omega) .null
    obtain ⟨m3, a3, w3, b3, k3, n3⟩ := Within.write (a := e.addr) (m := m2) (M := {e.slotsAt} + (intsBlocks e.listAt e.links + (ptrBlocks (slotPtrs H.items) + M))) (w2.as (by ac_rfl))
      (.heap { allocated := H.allocated, items := .block e.slotsAt, size := H.items.length - 1, heapified := H.heapified, updated := .block e.listAt })
    have hitem : ∀ x ∈ H.items, m3.blocks x.content.1 = some (.item (TItem.bare x)) := by
      intro x hx
      rw [k3.same _ (by simp [mem_slotPtrs hx]), k2.same _ (by simp [mem_slotPtrs hx]), k1.same _ (by simp [mem_slotPtrs hx])]
      exact hg.items x hx
    have g3 : QGood m3 e { H with items := l } := by
      refine ⟨?_, ?_, ?_, fun x hx => hitem x (hsub x hx), ?_, hg.noted⟩
      · simpa [hll] using b3
      · rw [k3.same _ (by simp), b2]
        congr 2
        simp only [hll]
        rw [slotPtrs_set hlen, show H.allocated - (H.items.length - 1) = (H.allocated - H.items.length) + 1 by have := hg.room; omega, List.replicate_succ]
        rw [List.set_append_left _ _ (by rw [slotPtrs_length, List.length_set]; omega)]
        have hne : (H.items.set 0 (H.items[H.items.length - 1]'(by omega))) ≠ [] := by
          intro hc
          have := congrArg List.length hc
          simp only [List.length_set, List.length_nil] at this
          omega
        conv_lhs => rw [← List.dropLast_append_getLast hne, ← hl]
        unfold slotPtrs
        rw [List.map_append, List.set_append_right _ _ (by simp [hll]), List.append_assoc]
        simp [hll]
      · have := hg.room
        simp only [hll]
        omega
      · have le1 : intsBlocks e.listAt e.links ≤ {e.addr} + (intsBlocks e.listAt e.links + (ptrBlocks (slotPtrs H.items) + M)) := (Multiset.le_add_right _ _).trans (Multiset.le_add_left _ _)
        have le2 : intsBlocks e.listAt e.links ≤ {e.slotsAt} + (intsBlocks e.listAt e.links + (ptrBlocks (slotPtrs H.items) + M)) := (Multiset.le_add_right _ _).trans (Multiset.le_add_left _ _)
        exact ((hg.ints.keep (k1.same.mono le1)).keep (k2.same.mono le1)).keep (k3.same.mono le2)
    obtain ⟨m4, a4, w4, k4, g4⟩ := heapifyQueue_spec (H := { H with items := l }) (M := {H.items[0].content.1} + M) (m := m3) (w3.as (by unfold QEntry.blocks; rw [hblk]; ac_rfl)) g3 h1
    have hmin : m4.blocks H.items[0].content.1 = some (.item (TItem.bare H.items[0])) := by
      rw [k4.same _ (by simp)]
      exact hitem _ (List.getElem_mem _)
    obtain ⟨m5, a5, w5, k5, n5⟩ := Within.release (q := .block H.items[0].content.1) (m := m4) (M := e.blocks l' + M) (by simp) (w4.as (by simp only [MemPtr.blocks]; ac_rfl))
    refine ⟨m5, hpure, ?_, w5, ?_, g4.keep (k5.same.mono (Multiset.le_add_right _ _)), rfl, by rw [← hll]; exact hp1.length_eq⟩
    · unfold extractQueue
      rw [queueAt_eq hg.cell, ok_bind]
      simp only
      rw [if_neg h0, slotAt_eq hg.slots (slotPtrs_get hlen), ok_bind, slotAt_eq hg.slots (slotPtrs_get (by omega)), ok_bind, a1, ok_bind, a2, ok_bind, a3, ok_bind, a4, ok_bind, itemAt_eq hmin, ok_bind, a5, ok_bind]
      rfl
    · have le1 : M ≤ {e.addr} + (intsBlocks e.listAt e.links + (ptrBlocks (slotPtrs H.items) + M)) := ((Multiset.le_add_left _ _).trans (Multiset.le_add_left _ _)).trans (Multiset.le_add_left _ _)
      have le2 : M ≤ {e.slotsAt} + (intsBlocks e.listAt e.links + (ptrBlocks (slotPtrs H.items) + M)) := ((Multiset.le_add_left _ _).trans (Multiset.le_add_left _ _)).trans (Multiset.le_add_left _ _)
      exact (k1.mono le1).trans ((k2.mono le1).trans ((k3.mono le2).trans ((k4.mono (Multiset.le_add_left _ _)).trans (k5.mono (Multiset.le_add_left _ _)))))

/-- Freeing. -/
theorem freeQueue_spec {m : QueueMemory} {M : Multiset Nat} {e : QEntry} {H : Heap (Nat × Nat)} (h : m.Within (e.blocks H.items + M)) (hg : QGood m e H) :
    ∃ m', m.freeQueue (.block e.addr) = ok m' ∧ m'.Within M ∧ m.Keeps m' M := by
  set R : Multiset Nat := {e.addr} + ({e.slotsAt} + (intsBlocks e.listAt e.links + M)) with hR
  have leR : M ≤ R := ((Multiset.le_add_left _ _).trans (Multiset.le_add_left _ _)).trans (Multiset.le_add_left _ _)
  obtain ⟨m1, a1, w1, k1⟩ := loop_inv (n := H.items.length) (f := fun i (m : QueueMemory) => do
      let hi ← m.slotAt (.block e.slotsAt) i
      let null ← hi.isNull
      if null then ok m else m.free hi) (s := m)
    (fun i s => s.Within (ptrBlocks (slotPtrs (H.items.drop i)) + R) ∧ m.Keeps s R) ⟨h.as (by unfold QEntry.blocks; rw [hR, List.drop_zero]; ac_rfl), Keeps.refl _ _⟩ (by
      intro i hi s hs
      obtain ⟨w, k⟩ := hs
      have e1 : ptrBlocks (slotPtrs (H.items.drop i)) = {H.items[i].content.1} + ptrBlocks (slotPtrs (H.items.drop (i + 1))) := by
        rw [List.drop_eq_getElem_cons hi]
        unfold slotPtrs
        rw [List.map_cons, ptrBlocks_cons]
        rfl
      obtain ⟨m2, a2, w2, k2, n2⟩ := Within.release (q := .block H.items[i].content.1) (m := s) (M := ptrBlocks (slotPtrs (H.items.drop (i + 1))) + R) (by simp) (w.as (by rw [e1]; simp only [MemPtr.blocks]; ac_rfl))
      have hsl : s.blocks e.slotsAt = _ := (k.same _ (by simp [hR])).trans hg.slots
      refine ⟨m2, ?_, w2, k.trans (k2.mono (Multiset.le_add_left _ _))⟩
      rw [slotAt_eq hsl (slotPtrs_get hi), ok_bind, isNull_block, ok_bind]
      simp only [Bool.false_eq_true, if_false]
      exact a2)
  rw [List.drop_length] at w1
  obtain ⟨m2, a2, w2, k2, n2⟩ := Within.release (q := .block e.slotsAt) (m := m1) (M := intsBlocks e.listAt e.links + ({e.addr} + M)) (by simp)
    (w1.as (by simp only [slotPtrs, List.map_nil, ptrBlocks_nil, MemPtr.blocks, hR, zero_add]; ac_rfl))
  have i2 : IntsIn m2 e.listAt e.links := (hg.ints.keep (k1.same.mono (by rw [hR]; exact ((Multiset.le_add_right _ _).trans (Multiset.le_add_left _ _)).trans (Multiset.le_add_left _ _)))).keep (k2.same.mono (Multiset.le_add_right _ _))
  obtain ⟨m3, a3, w3, i3, k3, n3⟩ := emptyInts_spec w2 i2
  obtain ⟨m4, a4, w4, k4, n4⟩ := Within.release (q := .block e.listAt) (m := m3) (M := {e.addr} + M) (by simp) w3
  obtain ⟨m5, a5, w5, k5, n5⟩ := Within.release (q := .block e.addr) (m := m4) (M := M) (by simp) w4
  refine ⟨m5, ?_, w5, ?_⟩
  · unfold freeQueue
    rw [isNull_block, ok_bind]
    simp only [Bool.false_eq_true, if_false]
    rw [queueAt_eq hg.cell, ok_bind]
    simp only
    erw [a1, ok_bind]
    rw [a2, ok_bind, a3, ok_bind, a4, ok_bind, a5]
  · exact (k1.mono leR).trans ((k2.mono ((Multiset.le_add_left _ _).trans (Multiset.le_add_left _ _))).trans ((k3.mono (Multiset.le_add_left _ _)).trans ((k4.mono (Multiset.le_add_left _ _)).trans k5)))

/-- A new queue. -/
theorem newQueue_spec {m : QueueMemory} {M : Multiset Nat} (h : m.Within M) {n : Nat} (hn : 0 < n) :
    (∃ m', m.newQueue n = ok (.null, m') ∧ (∃ k < 3, m.fails (m.next + k) = true) ∧ m'.Within M ∧ m.Keeps m' M) ∨
    (∃ m' e, m.newQueue n = ok (.block e.addr, m') ∧ m'.Within (e.blocks [] + M) ∧ m.Keeps m' M ∧ QGood m' e { items := [], allocated := n, bytes := 0, heapified := false, updated := [] }) := by
  unfold newQueue
  rw [if_neg (by omega)]
  rcases h.any (.heap { allocated := 0, items := .junk, size := 0, heapified := false, updated := .junk }) with ⟨m1, a1, f1, w1, k1, n1⟩ | ⟨m1, a1, f1, w1, b1, k1, n1⟩
  · simp only [a1, beq_self_eq_true, if_true]
    exact Or.inl ⟨m1, rfl, ⟨0, by omega, f1⟩, w1, k1⟩
  simp only [a1, beq_iff_eq, reduceCtorEq, if_false]
  rcases w1.any (.slots (List.replicate n .null)) with ⟨m2, a2, f2, w2, k2, n2⟩ | ⟨m2, a2, f2, w2, b2, k2, n2⟩
  · simp only [a2, if_true]
    obtain ⟨m3, a3, w3, k3, n3⟩ := Within.release (q := .block m.next) (m := m2) (M := M) (by simp) w2
    rw [a3, ok_bind]
    exact Or.inl ⟨m3, rfl, ⟨1, by omega, by rw [← k1.fails, ← n1]; exact f2⟩, w3, k1.trans ((k2.mono (Multiset.le_add_left _ _)).trans k3)⟩
  simp only [a2, reduceCtorEq, if_false]
  rcases w2.any (.list { length := 0, first := .null, last := .null }) with ⟨m3, a3, f3, w3, k3, n3⟩ | ⟨m3, a3, f3, w3, b3, k3, n3⟩
  · simp only [a3, if_true]
    obtain ⟨m4, a4, w4, k4, n4⟩ := Within.release (q := .block m1.next) (m := m3) (M := {m.next} + M) (by simp) w3
    obtain ⟨m5, a5, w5, k5, n5⟩ := Within.release (q := .block m.next) (m := m4) (M := M) (by simp) w4
    rw [a4, ok_bind, a5, ok_bind]
    exact Or.inl ⟨m5, rfl, ⟨2, by omega, by rw [← k1.fails, ← k2.fails, show m.next + 2 = m2.next by omega]; exact f3⟩, w5,
      k1.trans ((k2.mono (Multiset.le_add_left _ _)).trans ((k3.mono ((Multiset.le_add_left _ _).trans (Multiset.le_add_left _ _))).trans ((k4.mono (Multiset.le_add_left _ _)).trans k5)))⟩
  simp only [a3, reduceCtorEq, if_false]
  obtain ⟨m4, a4, w4, b4, k4, n4⟩ := Within.write (a := m.next) (m := m3) (M := {m2.next} + ({m1.next} + M)) (w3.as (by ac_rfl))
    (.heap { allocated := n, items := .block m1.next, size := 0, heapified := false, updated := .block m2.next })
  rw [a4, ok_bind]
  refine Or.inr ⟨m4, ⟨m.next, m1.next, m2.next, []⟩, rfl, w4.as ?_, ?_, ?_⟩
  · simp only [QEntry.blocks, intsBlocks, linkPtrs, slotPtrs, List.map_nil, ptrBlocks_nil, add_zero]
    ac_rfl
  · exact k1.trans ((k2.mono (Multiset.le_add_left _ _)).trans ((k3.mono ((Multiset.le_add_left _ _).trans (Multiset.le_add_left _ _))).trans (k4.mono ((Multiset.le_add_left _ _).trans (Multiset.le_add_left _ _)))))
  · refine ⟨b4, ?_, Nat.zero_le _, fun x hx => by simp at hx, ⟨?_, fun j hj => by simp at hj⟩, rfl⟩
    · rw [k4.same _ (by simp), k3.same _ (by simp), b2]
      simp [slotPtrs]
    · rw [k4.same _ (by simp), b3]
      rfl

theorem Fits.mono {room : Nat} {l : List QueueCall} : ∀ {j k : Nat}, j ≤ k → Fits room k l → Fits room j l := by
  induction l with
  | nil => intros; trivial
  | cons a l ih =>
    intro j k hjk h
    cases a with
    | insert c => exact ⟨by have := h.1; omega, ih (by omega) h.2⟩
    | set i c => exact ih hjk h
    | build => exact ih hjk h
    | extract => exact ih (by omega) h

/-- One call. -/
theorem queueCall_spec {m : QueueMemory} {M : Multiset Nat} {e : QEntry} {H : Heap (Nat × Nat)} {k : Nat} (h : m.Within (e.blocks H.items + M)) (hg : QGood m e H) (ptr : Nat) (pk sk : Nat → Int) (a : QueueCall)
    {l : List QueueCall} (hf : Fits H.allocated k (a :: l)) (hk : H.items.length ≤ k) :
    ∃ b x e' H' m', (b = false → ∃ k, m.fails k = true) ∧ queueCall ptr pk sk m (.block e.addr) a = ok (x, m') ∧ a.on pk sk (bareHeap H) b = ok (x, bareHeap H') ∧ e'.addr = e.addr ∧
      m'.Within (e'.blocks H'.items + M) ∧ m.Keeps m' M ∧ QGood m' e' H' ∧ H'.allocated = H.allocated ∧ Fits H'.allocated H'.items.length l := by
  cases a with
  | insert c =>
    have hr : H.items.length < H.allocated := by have := hf.1; omega
    rcases insertQueue_spec h hg hr ptr pk sk c with ⟨m1, a1, f1, w1, k1, g1⟩ | ⟨m1, a1, f1, w1, k1, g1⟩
    · refine ⟨false, .code ENOMEM, e, H, m1, fun _ => ⟨_, f1⟩, ?_, rfl, rfl, w1, k1, g1, rfl, Fits.mono (by omega) hf.2⟩
      unfold queueCall
      simp only [a1, ok_bind]
    · refine ⟨true, .code 0, e, { H with items := H.items ++ [{ content := (m.next, c), primary := pk c, secondary := sk c }], heapified := false }, m1, fun hc => by simp at hc, ?_, ?_, rfl, w1, k1, g1, rfl,
        Fits.mono (by simpa using hk) hf.2⟩
      · unfold queueCall
        simp only [a1, ok_bind]
      · unfold QueueCall.on bareHeap queueItem
        simp [TItem.bare]
  | set i c =>
    by_cases hi : i < H.items.length
    · obtain ⟨m1, ls, b, a1, f1, w1, k1, g1⟩ := setQueue_spec h hg pk sk i c hi
      refine ⟨b, .code 0, { e with links := ls },
        { H with items := H.items.set i { content := (H.items[i].content.1, c), primary := pk c, secondary := sk c }, updated := if b then H.updated ++ [i] else H.updated }, m1, fun hb => ⟨_, by rw [f1, hb]; rfl⟩, ?_, ?_, ?_, w1, k1, g1, rfl, Fits.mono (by simpa using hk) hf⟩
      · unfold queueCall
        simp only [a1, ok_bind]
      · unfold QueueCall.on bareHeap queueItem
        simp only [List.length_map]
        rw [if_neg (by omega), List.map_set]
        rfl
      · rfl
    · refine ⟨true, .code EINVAL, e, H, m, fun hc => by simp at hc, ?_, ?_, rfl, h, Keeps.refl _ _, hg, rfl, Fits.mono hk hf⟩
      · show (do
          let (n, m) ← setQueue pk sk m (.block e.addr) i c
          ok (QueueAnswer.code n, m)) = ok (.code EINVAL, m)
        unfold setQueue
        rw [queueAt_eq hg.cell, ok_bind]
        simp only
        rw [if_pos (by omega), ok_bind]
      · unfold QueueCall.on bareHeap
        simp only [List.length_map]
        rw [if_pos (by omega)]
  | build =>
    obtain ⟨H', m1, h1, a1, w1, k1, g1, e1, e2⟩ := buildQueue_spec h hg
    refine ⟨true, .code 0, { e with links := [] }, H', m1, fun hc => by simp at hc, ?_, ?_, ?_, w1, k1, g1, e1, ?_⟩
    · unfold queueCall
      simp only [a1, ok_bind]
    · unfold QueueCall.on
      simp only [build_bare h1, ok_bind]
    · rfl
    · rw [e1, e2]
      exact Fits.mono hk hf
  | extract =>
    obtain ⟨c, H', m1, h1, a1, w1, k1, g1, e1, e2⟩ := extractQueue_spec h hg
    refine ⟨true, .candidate (c.map Prod.snd), e, H', m1, fun hc => by simp at hc, ?_, ?_, rfl, w1, k1, g1, e1, ?_⟩
    · unfold queueCall
      simp only [a1, ok_bind]
    · unfold QueueCall.on
      simp only [extractMin_bare h1, ok_bind]
    · rw [e1, e2]
      exact Fits.mono (by omega) hf

/-- A history. -/
theorem queueCalls_spec {M : Multiset Nat} (ptr : Nat) (pk sk : Nat → Int) (calls : List QueueCall) : ∀ {m : QueueMemory} {e : QEntry} {H : Heap (Nat × Nat)}, m.Within (e.blocks H.items + M) → QGood m e H →
    Fits H.allocated H.items.length calls →
    ∃ bs xs e' H' m', bs.length = calls.length ∧ ((∀ k, m.fails k = false) → ∀ b ∈ bs, b = true) ∧ queueCalls ptr pk sk (.block e.addr) m calls = ok (xs, m') ∧
      replay pk sk (bareHeap H) (calls.zip bs) = ok (xs, bareHeap H') ∧ e'.addr = e.addr ∧ m'.Within (e'.blocks H'.items + M) ∧ m.Keeps m' M ∧ QGood m' e' H' ∧ H'.allocated = H.allocated := by
  induction calls with
  | nil =>
    intro m e H h hg _
    exact ⟨[], [], e, H, m, rfl, fun _ b hb => by simp at hb, rfl, rfl, rfl, h, Keeps.refl _ _, hg, rfl⟩
  | cons a l ih =>
    intro m e H h hg hf
    obtain ⟨b, x, e1, H1, m1, f1, a1, p1, ea, w1, k1, g1, al1, hf1⟩ := queueCall_spec h hg ptr pk sk a hf (Nat.le_refl _)
    obtain ⟨bs, xs, e2, H2, m2, l2, f2, a2, p2, ea2, w2, k2, g2, al2⟩ := ih w1 g1 hf1
    refine ⟨b :: bs, x :: xs, e2, H2, m2, by simp [l2], ?_, ?_, ?_, ea2.trans ea, w2, k1.trans k2, g2, al2.trans al1⟩
    · intro hn b' hb'
      rcases List.mem_cons.mp hb' with rfl | hb'
      · cases hb : b' with
        | true => rfl
        | false =>
          obtain ⟨k, hk⟩ := f1 hb
          rw [hn k] at hk
          cases hk
      · exact f2 (fun k => by rw [k1.fails]; exact hn k) b' hb'
    · unfold queueCalls
      rw [a1, ok_bind]
      simp only
      rw [← ea, a2, ok_bind]
    · rw [List.zip_cons_cons]
      unfold replay
      simp only
      rw [p1, ok_bind]
      simp only
      rw [p2, ok_bind]

/-- Inserting into a full queue. -/
theorem insertQueue_full {m : QueueMemory} {M : Multiset Nat} {e : QEntry} {H : Heap (Nat × Nat)} (h : m.Within (e.blocks H.items + M)) (hg : QGood m e H) (hr : H.items.length = H.allocated) (h0 : 0 < H.allocated)
    {ptr : Nat} (hp : 2 ≤ ptr) (pk sk : Nat → Int) (c : Nat) :
    (∃ m', insertQueue ptr pk sk m (.block e.addr) c = ok (ENOMEM, m') ∧ m.fails m.next = true ∧ m'.Within (e.blocks H.items + M) ∧ m.Keeps m' (e.blocks H.items + M)) ∨
    (∃ m', insertQueue ptr pk sk m (.block e.addr) c = ok (ENOMEM, m') ∧ m.fails m.next = false ∧ m.fails (m.next + 1) = true ∧ m'.Within ({m.next} + (e.blocks H.items + M)) ∧ m.Keeps m' (e.blocks H.items + M)) ∨
    (insertQueue ptr pk sk m (.block e.addr) c = ub ∧ m.fails m.next = false ∧ m.fails (m.next + 1) = false) := by
  unfold insertQueue
  rcases h.any (.item { content := c, primary := pk c, secondary := sk c }) with ⟨m1, a1, f1, w1, k1, n1⟩ | ⟨m1, a1, f1, w1, b1, k1, n1⟩
  · simp only [a1, beq_self_eq_true, if_true]
    exact Or.inl ⟨m1, rfl, f1, w1, k1⟩
  refine Or.inr ?_
  have g1 := hg.keep (k1.same.mono (Multiset.le_add_right _ _))
  simp only [a1, beq_iff_eq, reduceCtorEq, if_false]
  rw [queueAt_eq g1.cell, ok_bind]
  simp only
  rw [if_pos hr]
  unfold growQueue
  rw [queueAt_eq g1.cell, ok_bind]
  simp only
  rw [slotsAt_eq g1.slots, ok_bind]
  rw [show H.allocated - H.items.length = 0 by omega, List.replicate_zero, List.append_nil]
  set sl : List MemPtr := (slotPtrs H.items).take (2 * H.allocated / ptr) ++ List.replicate (2 * H.allocated / ptr - (slotPtrs H.items).length) .junk with hsl
  have hle : 2 * H.allocated / ptr ≤ H.allocated := by
    calc 2 * H.allocated / ptr ≤ 2 * H.allocated / 2 := Nat.div_le_div_left hp (by omega)
      _ = H.allocated := by omega
  have hlen : sl.length ≤ H.allocated := by
    rw [hsl, List.length_append, List.length_take, List.length_replicate, slotPtrs_length]
    omega
  rcases w1.any (.slots sl) with ⟨m2, a2, f2, w2, k2, n2⟩ | ⟨m2, a2, f2, w2, b2, k2, n2⟩
  · simp only [a2, if_true, ok_bind, Bool.not_false]
    exact Or.inl ⟨m2, rfl, f1, by rw [← k1.fails, ← n1]; exact f2, w2, k1.trans (k2.mono (Multiset.le_add_left _ _))⟩
  · refine Or.inr ⟨?_, f1, by rw [← k1.fails, ← n1]; exact f2⟩
    simp only [a2, reduceCtorEq, if_false]
    obtain ⟨m3, a3, w3, k3, n3⟩ := Within.release (q := .block e.slotsAt) (m := m2) (M := {m1.next} + ({e.addr} + ({m.next} + (intsBlocks e.listAt e.links + (ptrBlocks (slotPtrs H.items) + M))))) (by simp)
      (w2.as (by unfold QEntry.blocks; simp only [MemPtr.blocks]; ac_rfl))
    rw [a3, ok_bind]
    obtain ⟨m4, a4, w4, b4, k4, n4⟩ := Within.write (a := e.addr) (m := m3) (M := {m1.next} + ({m.next} + (intsBlocks e.listAt e.links + (ptrBlocks (slotPtrs H.items) + M)))) (w3.as (by ac_rfl))
      (.heap { allocated := 2 * H.allocated, items := .block m1.next, size := H.items.length, heapified := H.heapified, updated := .block e.listAt })
    rw [a4, ok_bind]
    have b4' : m4.blocks m1.next = some (.slots sl) := by
      rw [k4.same _ (by simp), k3.same _ (by simp), b2]
    obtain ⟨j, hj⟩ : ∃ j, 2 * H.allocated - H.items.length = j + 1 := ⟨2 * H.allocated - H.items.length - 1, by omega⟩
    rw [hj, loopDown_succ]
    have : m4.setSlot (.block m1.next) (H.items.length + j) .null = ub := by
      unfold Store.setSlot
      rw [slotsAt_eq b4', ok_bind]
      unfold wr
      rw [if_neg (by omega)]
      rfl
    rw [this]
    rfl

end Nip
