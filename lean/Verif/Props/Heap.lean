import Verif.HeapLemmas

/-!
# Properties C13–C15: the priority queue
-/

namespace Nip.Props

open Res Heap

variable {α : Type}

/-- Insert a list of elements, one after the other. -/
def insertAll (ptr : Nat) (pk sk : α → Int) (h : Heap α) (xs : List α) : Res (Heap α) :=
  xs.foldlM (fun h x => Heap.insert ptr pk sk h x) h

/-- Take out `n` elements, in order; `none` marks an attempt on an empty queue. -/
def drain : Nat → Heap α → Res (List (Option α) × Heap α)
  | 0, h => ok ([], h)
  | n + 1, h => do
    let (x, h) ← h.extractMin
    let (xs, h) ← drain n h
    ok (x :: xs, h)

/-- Lexicographic order of costs. -/
def CostLe (pk sk : α → Int) (x y : α) : Prop := pk x < pk y ∨ (pk x = pk y ∧ sk x ≤ sk y)

instance (pk sk : α → Int) (x y : α) : Decidable (CostLe pk sk x y) := by unfold CostLe; infer_instance

/-- Every item carries the costs of its content. -/
def Keyed (pk sk : α → Int) (items : List (HeapItem α)) : Prop :=
  ∀ hi ∈ items, hi.primary = pk hi.content ∧ hi.secondary = sk hi.content

instance (pk sk : α → Int) (items : List (HeapItem α)) : Decidable (Keyed pk sk items) := by
  unfold Keyed; infer_instance

theorem insertAll_ok (ptr : Nat) (pk sk : α → Int) (xs : List α) (h : Heap α)
    (hcap : h.items.length + xs.length ≤ h.allocated) (hb : h.bytes = h.allocated * ptr) :
    insertAll ptr pk sk h xs = ok { h with
      items := h.items ++ xs.map (fun x => ⟨x, pk x, sk x⟩)
      heapified := if xs = [] then h.heapified else false } := by
  induction xs generalizing h with
  | nil => simp [insertAll]
  | cons x xs ih =>
    simp only [List.length_cons] at hcap
    unfold insertAll at ih ⊢
    have hslot : slot ptr h.bytes h.items.length = ok () := by
      unfold slot; rw [if_pos]; rw [hb]; exact Nat.mul_le_mul_right _ (by omega)
    have hins : Heap.insert ptr pk sk h x
        = ok { h with items := h.items ++ [⟨x, pk x, sk x⟩], heapified := false } := by
      unfold Heap.insert
      rw [if_neg (by omega)]
      simp only [ok_bind, hslot]
    rw [List.foldlM_cons, hins, ok_bind,
      ih { h with items := h.items ++ [⟨x, pk x, sk x⟩], heapified := false } (by simp; omega) hb]
    simp [List.append_assoc]

theorem drain_sorted (pk sk : α → Int) (n : Nat) (h : Heap α) (hn : h.items.length = n)
    (ho : Ord h.items 0 none) (hk : Keyed pk sk h.items) :
    ∃ (out : List α) (g : Heap α), drain n h = ok (out.map some, g) ∧ g.items = [] ∧ out.Perm (h.items.map (·.content)) ∧
      out.Pairwise (CostLe pk sk) := by
  induction n generalizing h with
  | zero =>
    exact ⟨[], h, rfl, List.length_eq_zero_iff.mp hn, by simp [List.length_eq_zero_iff.mp hn], List.Pairwise.nil⟩
  | succ n ih =>
    obtain ⟨g, hg, hperm, hgo⟩ := extractMin_ord h (by omega) ho
    have hlen : g.items.length = n := by have := hperm.length_eq; simp at this; omega
    have hkg : Keyed pk sk g.items := fun hi hmem => hk hi (hperm.subset (List.mem_cons_of_mem _ hmem))
    obtain ⟨out, g', hd, he, hp, hs⟩ := ih g hlen hgo hkg
    refine ⟨h.items[0].content :: out, g', ?_, he, ?_, ?_⟩
    · unfold drain; rw [hg, ok_bind]; simp only [hd, ok_bind, List.map_cons]
    · have := hperm.map (fun x : HeapItem α => x.content)
      exact (List.Perm.cons _ hp).trans this
    · refine List.Pairwise.cons (fun y hy => ?_) hs
      have hy' := hp.subset hy
      obtain ⟨hi, hmem, rfl⟩ := List.mem_map.mp hy'
      have hmem' : hi ∈ h.items := hperm.subset (List.mem_cons_of_mem _ hmem)
      obtain ⟨j, hj, rfl⟩ := List.getElem_of_mem hmem'
      have h1 := root_le ho j hj
      have k0 := hk _ (List.getElem_mem (show 0 < h.items.length by omega))
      have kj := hk _ hmem'
      unfold le at h1
      unfold CostLe
      rw [← k0.1, ← k0.2, ← kj.1, ← kj.2]
      exact h1

/-- C13: a queue created with enough capacity (growing is C15), filled with any elements and ordered, hands them out in
order of cost, each exactly once, and then reports to be empty. -/
theorem C13_drain (ptr : Nat) (pk sk : α → Int) (cap : Int) (xs : List α) (hcap : 0 < cap)
    (hlen : (xs.length : Int) ≤ cap) :
    ∃ (h0 h1 h2 h3 : Heap α) (out : List α), Heap.new ptr cap = some h0 ∧ insertAll ptr pk sk h0 xs = ok h1 ∧ h1.build = ok h2 ∧
      drain xs.length h2 = ok (out.map some, h3) ∧
      out.Perm xs ∧ out.Pairwise (CostLe pk sk) ∧ h3.extractMin = ok (none, h3) := by
  have hnew : Heap.new ptr cap = some (⟨[], cap.toNat, cap.toNat * ptr, false, []⟩ : Heap α) := by
    unfold Heap.new; rw [if_neg (by omega)]
  have hins := insertAll_ok ptr pk sk xs (⟨[], cap.toNat, cap.toNat * ptr, false, []⟩ : Heap α)
    (by simp; omega) rfl
  simp only [List.nil_append, ite_self] at hins
  obtain ⟨g, hg, hp, ho, _, _⟩ := build_ord
    (⟨xs.map (fun x => ⟨x, pk x, sk x⟩), cap.toNat, cap.toNat * ptr, false, []⟩ : Heap α) rfl
  have hk : Keyed pk sk g.items := by
    intro hi hmem
    obtain ⟨x, _, rfl⟩ := List.mem_map.mp (hp.subset hmem)
    exact ⟨rfl, rfl⟩
  obtain ⟨out, h3, hd, he, hpo, hs⟩ := drain_sorted pk sk xs.length g
    (by rw [hp.length_eq]; simp) ho hk
  refine ⟨_, _, g, h3, out, hnew, hins, hg, hd, ?_, hs, ?_⟩
  · refine hpo.trans ((hp.map _).trans ?_)
    simp [List.map_map, Function.comp_def]
  · unfold extractMin; simp [he]

example : (0 : Int) < 8 ∧ (([5, 3, 5, -2, 9, 0] : List Int).length : Int) ≤ 8 ∧
    (insertAll 8 id (fun x => -x) (⟨[], 8, 64, false, []⟩ : Heap Int) [5, 3, 5, -2, 9, 0]
      >>= build >>= drain 7 >>= fun r => ok r.1)
      = ok [some (-2), some 0, some 3, some 5, some 5, some 9, none] := by decide +kernel

/-! ## C14 -/

/-- A queue that has been ordered and not changed since: no child costs less than its parent. -/
structure Ordered (pk sk : α → Int) (h : Heap α) : Prop where
  flag : h.heapified = true
  clean : h.updated = []
  keyed : Keyed pk sk h.items
  order : ∀ j x y, h.items[(j - 1) / 2]? = some x → h.items[j]? = some y → 1 ≤ j →
    CostLe pk sk x.content y.content

/-- Ordered queues exist for all contents: they are what `build` makes of a freshly filled queue. -/
theorem C14_ordered_reachable (pk sk : α → Int) (h : Heap α) (hh : h.heapified = false) (hk : Keyed pk sk h.items) :
    ∃ g, h.build = ok g ∧ g.items.Perm h.items ∧ Ordered pk sk g := by
  obtain ⟨g, hg, hp, ho, hu, hf⟩ := build_ord h hh
  have hkg : Keyed pk sk g.items := fun hi hm => hk hi (hp.subset hm)
  refine ⟨g, hg, hp, hf, hu, hkg, ?_⟩
  intro j x y hx hy hj
  obtain ⟨h1, rfl⟩ := List.getElem?_eq_some_iff.mp hx
  obtain ⟨h2, rfl⟩ := List.getElem?_eq_some_iff.mp hy
  have := ho j h2 hj (by omega) (by simp)
  have k1 := hkg _ (List.getElem_mem h1)
  have k2 := hkg _ (List.getElem_mem h2)
  unfold CostLe; rw [← k1.1, ← k1.2, ← k2.1, ← k2.2]; exact this

/-- C14 is false: after replacing an element by a cheaper one and re-ordering, a dearer element is taken out. -/
theorem C14_refuted : ∃ (h g g' : Heap Int) (x : Int), Ordered id id h ∧
    setItem id id h 2 0 1 = (0, g) ∧ g.build = ok g' ∧ (g'.extractMin >>= fun r => ok r.1) = ok (some x) ∧
    ∃ hi ∈ g'.items, ¬ CostLe id id x hi.content := by
  refine ⟨⟨[⟨1, 1, 1⟩, ⟨2, 2, 2⟩, ⟨3, 3, 3⟩], 3, 24, true, []⟩,
    ⟨[⟨1, 1, 1⟩, ⟨2, 2, 2⟩, ⟨0, 0, 0⟩], 3, 24, true, [2]⟩,
    ⟨[⟨1, 1, 1⟩, ⟨2, 2, 2⟩, ⟨0, 0, 0⟩], 3, 24, true, []⟩, 1, ?_, by decide, by decide +kernel, by decide +kernel,
    ⟨0, 0, 0⟩, by decide, by decide⟩
  refine ⟨rfl, rfl, by decide, ?_⟩
  intro j x y hx hy hj
  match j, hj with
  | 1, _ => simp at hx hy; subst hx hy; decide
  | 2, _ => simp at hx hy; subst hx hy; decide
  | (n + 3), _ => simp at hy

/-- Making two elements dearer before re-ordering breaks the order as well: a parent is sifted below a child that has not been
repaired yet. -/
theorem C14_two_increases_refuted : ∃ (h g1 g2 g' : Heap Int) (x : Int),
    setItem id id h 0 10 1 = (0, g1) ∧ setItem id id g1 1 9 1 = (0, g2) ∧
    h = ⟨[⟨1, 1, 1⟩, ⟨2, 2, 2⟩, ⟨20, 20, 20⟩, ⟨3, 3, 3⟩], 4, 32, true, []⟩ ∧
    g2.build = ok g' ∧ (g'.extractMin >>= fun r => ok r.1) = ok (some x) ∧
    ∃ hi ∈ g'.items, ¬ CostLe id id x hi.content :=
  ⟨_, _, _, ⟨[⟨9, 9, 9⟩, ⟨3, 3, 3⟩, ⟨20, 20, 20⟩, ⟨10, 10, 10⟩], 4, 32, true, []⟩, 9, rfl, rfl, rfl,
    by decide +kernel, by decide +kernel, ⟨3, 3, 3⟩, by decide, by decide⟩

/-- C14 (partial): for one replacement that does not lower the cost, the next element taken out has the least cost of those
present.  Missing: replacements that lower the cost, for which it is false (`C14_refuted`). -/
theorem C14_increase_partial (pk sk : α → Int) (h : Heap α) (ho : Ordered pk sk h) (i : Nat) (hi : i < h.items.length)
    (x : α) (size : Int) (hsize : 0 < size) (hle : CostLe pk sk h.items[i].content x) :
    ∃ g g' y r, setItem pk sk h i x size = (0, g) ∧ g.build = ok g' ∧
      (g'.items.map (·.content)).Perm ((h.items.map (·.content)).set i x) ∧
      g'.extractMin = ok (some y, r) ∧ y ∈ (h.items.map (·.content)).set i x ∧
      (∀ z ∈ (h.items.map (·.content)).set i x, CostLe pk sk y z) ∧ Ordered pk sk g' := by
  set a := h.items.set i ⟨x, pk x, sk x⟩ with ha
  have hset : setItem pk sk h i x size = (0, { h with items := a, updated := [i] }) := by
    unfold setItem
    rw [if_neg (by omega)]
    simp [ho.clean, ha]
  have hord : ∀ j (hj : j < h.items.length), 1 ≤ j → le (h.items[(j - 1) / 2]'(by omega)) h.items[j] := by
    intro j hj h1
    have := ho.order j _ _ (List.getElem?_eq_getElem (by omega)) (List.getElem?_eq_getElem hj) h1
    have k1 := ho.keyed _ (List.getElem_mem (show (j - 1) / 2 < h.items.length by omega))
    have k2 := ho.keyed _ (List.getElem_mem hj)
    unfold CostLe at this; rw [← k1.1, ← k1.2, ← k2.1, ← k2.2] at this; exact this
  have hnew : le h.items[i] ⟨x, pk x, sk x⟩ := by
    have k1 := ho.keyed _ (List.getElem_mem hi)
    unfold CostLe at hle; rw [← k1.1, ← k1.2] at hle; exact hle
  obtain ⟨b, hb, hp, hbo⟩ := minHeapify_ord a 0 i (Nat.zero_le _)
    (by
      intro j hj h1 _ hne
      have hjl : j < h.items.length := by simpa [ha] using hj
      have hne : i ≠ (j - 1) / 2 := by intro e; exact hne (by rw [e])
      simp only [ha, List.getElem_set, hne, if_false]
      split
      · rename_i e; subst e; exact Heap.le_trans (hord i hjl h1) hnew
      · exact hord j hjl h1)
    (by
      intro h1 _ j hj hj1 hpar
      have hjl : j < h.items.length := by simpa [ha] using hj
      have c1 : i ≠ (i - 1) / 2 := by omega
      have c2 : i ≠ j := by omega
      simp only [ha, List.getElem_set, c1, c2, if_false]
      have e1 := hord j hjl hj1
      simp only [hpar] at e1
      exact Heap.le_trans (hord i hi h1) e1)
  have hkb : Keyed pk sk b := by
    intro hh hm
    have hm := hp.subset hm
    rw [ha] at hm
    rcases List.mem_or_eq_of_mem_set hm with hm | rfl
    · exact ho.keyed _ hm
    · exact ⟨rfl, rfl⟩
  have hcont : (b.map (·.content)).Perm ((h.items.map (·.content)).set i x) := by
    have := hp.map (fun z : HeapItem α => z.content)
    rw [ha, List.map_set] at this
    exact this
  have hbl : 0 < b.length := by rw [hp.length_eq, ha]; simp; omega
  have hbuild : ({ h with items := a, updated := [i] } : Heap α).build
      = ok { h with items := b, updated := [], heapified := true } := by
    unfold build
    simp [ho.flag, hb]
  obtain ⟨r, hr, _, _⟩ := extractMin_ord ({ h with items := b, updated := [], heapified := true } : Heap α) hbl hbo
  refine ⟨_, _, b[0].content, r, hset, hbuild, hcont, hr, ?_, ?_, ⟨rfl, rfl, hkb, ?_⟩⟩
  · exact hcont.subset (List.mem_map.mpr ⟨_, List.getElem_mem hbl, rfl⟩)
  · intro z hz
    obtain ⟨w, hw, rfl⟩ := List.mem_map.mp (hcont.symm.subset hz)
    obtain ⟨j, hj, rfl⟩ := List.getElem_of_mem hw
    have k1 := hkb _ (List.getElem_mem hbl)
    have k2 := hkb _ hw
    unfold CostLe; rw [← k1.1, ← k1.2, ← k2.1, ← k2.2]
    exact root_le hbo j hj
  · intro j u w hu hw hj
    obtain ⟨h1, rfl⟩ := List.getElem?_eq_some_iff.mp hu
    obtain ⟨h2, rfl⟩ := List.getElem?_eq_some_iff.mp hw
    have := hbo j h2 hj (by omega) (by simp)
    have k1 := hkb _ (List.getElem_mem h1)
    have k2 := hkb _ (List.getElem_mem h2)
    unfold CostLe; rw [← k1.1, ← k1.2, ← k2.1, ← k2.2]; exact this

example : ∃ h : Heap Int, Ordered id id h ∧ 3 ≤ h.items.length ∧
    (∃ hi : 0 < h.items.length, CostLe id id h.items[0].content 7) := by
  obtain ⟨g, hg, hp, ho⟩ := C14_ordered_reachable (α := Int) id id
    ⟨[⟨3, 3, 3⟩, ⟨1, 1, 1⟩, ⟨2, 2, 2⟩], 3, 24, false, []⟩ rfl (by decide)
  refine ⟨g, ho, by rw [hp.length_eq]; decide, by rw [hp.length_eq]; decide, ?_⟩
  have : g.items[0]'(by rw [hp.length_eq]; decide) ∈ g.items := List.getElem_mem _
  have := hp.subset this
  simp only [List.mem_cons, List.not_mem_nil, or_false] at this
  rcases this with h | h | h <;> rw [h] <;> decide

/-! ## C15 -/

/-- C15 is false, for *every* capacity: the insertion after the last free place writes outside the memory owned. -/
theorem C15_refuted (ptr : Nat) (hptr : 2 ≤ ptr) (pk sk : α → Int) (cap : Int) (hcap : 0 < cap) (xs : List α) (x : α)
    (hlen : (xs.length : Int) = cap) :
    ∃ h0 : Heap α, Heap.new ptr cap = some h0 ∧ insertAll ptr pk sk h0 (xs ++ [x]) = ub := by
  have hnew : Heap.new ptr cap = some (⟨[], cap.toNat, cap.toNat * ptr, false, []⟩ : Heap α) := by
    unfold Heap.new; rw [if_neg (by omega)]
  refine ⟨_, hnew, ?_⟩
  have hins := insertAll_ok ptr pk sk xs (⟨[], cap.toNat, cap.toNat * ptr, false, []⟩ : Heap α)
    (by simp; omega) rfl
  unfold insertAll at hins ⊢
  rw [List.foldlM_append, hins, ok_bind]
  simp only [List.nil_append, List.foldlM_cons]
  have hfull : xs.length = cap.toNat := by omega
  unfold Heap.insert
  simp only [List.length_map, hfull, if_true]
  have h2 : 2 * cap.toNat - cap.toNat = (cap.toNat - 1) + 1 := by omega
  rw [h2, loopDown_succ]
  have : slot ptr (2 * cap.toNat) (cap.toNat + (cap.toNat - 1)) = ub := by
    unfold slot
    rw [if_neg]
    intro hle
    have : (cap.toNat + (cap.toNat - 1) + 1) = 2 * cap.toNat := by omega
    rw [this] at hle
    have h3 : 2 * cap.toNat * 2 ≤ 2 * cap.toNat * ptr := Nat.mul_le_mul_left _ hptr
    omega
  simp only [List.length_map, hfull, this, ub_bind, ub_bind']

example : (2 : Nat) ≤ 8 ∧ (0 : Int) < 3 ∧ (([1, 2, 3] : List Nat).length : Int) = 3 := by decide

/-- C15 (partial): as long as no more elements are inserted than the initial capacity, all writes are inside the memory owned.
Missing: insertions beyond the initial capacity, for which it is false (`C15_refuted`). -/
theorem C15_within_capacity_partial (ptr : Nat) (pk sk : α → Int) (cap : Int) (hcap : 0 < cap) (xs : List α)
    (hlen : (xs.length : Int) ≤ cap) :
    ∃ h0 h : Heap α, Heap.new ptr cap = some h0 ∧ insertAll ptr pk sk h0 xs = ok h ∧
      h.items.map (·.content) = xs ∧ h.items.length * ptr ≤ h.bytes := by
  have hnew : Heap.new ptr cap = some (⟨[], cap.toNat, cap.toNat * ptr, false, []⟩ : Heap α) := by
    unfold Heap.new; rw [if_neg (by omega)]
  refine ⟨_, _, hnew, insertAll_ok ptr pk sk xs _ (by simp; omega) rfl, ?_, ?_⟩
  · simp [List.map_map, Function.comp_def]
  · simp only [List.nil_append, List.length_map]
    exact Nat.mul_le_mul_right _ (by omega)

end Nip.Props
