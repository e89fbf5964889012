import Verif.TriangulateInt
import Verif.PotentialIntLemmas
import Verif.ElimLemmas
import Mathlib.Algebra.BigOperators.Intervals

/-! # Lemmas on the integer arithmetic of the triangulation -/

namespace Nip

open Res Graph

theorem loop_congr_inv {σ : Type} (P : Nat → σ → Prop) {n : Nat} {f g : Nat → σ → Res σ} {s : σ} (h0 : P 0 s)
    (h : ∀ i, i < n → ∀ s, P i s → f i s = g i s ∧ ∀ s', g i s = ok s' → P (i + 1) s') :
    loop n f s = loop n g s ∧ ∀ s', loop n g s = ok s' → P n s' := by
  induction n with
  | zero =>
    refine ⟨rfl, fun s' hs => ?_⟩
    cases hs; exact h0
  | succ n ih =>
    obtain ⟨h1, h2⟩ := ih (fun i hi => h i (by omega))
    rw [loop_succ, loop_succ, h1]
    cases hg : loop n g s with
    | ub => exact ⟨rfl, fun s' hs => by cases hs⟩
    | ok t =>
      simp only [ok_bind']
      exact h n (by omega) t (h2 t hg)

theorem loop_ub_at {σ : Type} (P : Nat → σ → Prop) {n : Nat} {f : Nat → σ → Res σ} {s : σ} (h0 : P 0 s)
    (h : ∀ i, i < n → ∀ s, P i s → ∀ s', f i s = ok s' → P (i + 1) s') {k : Nat} (hk : k < n) (hub : ∀ s, P k s → f k s = ub) :
    loop n f s = ub := by
  have hinv : ∀ m, m ≤ n → ∀ s', loop m f s = ok s' → P m s' := by
    intro m hm
    have := loop_congr_inv (n := m) (f := f) (g := f) (s := s) P h0 (fun i hi s hs => ⟨rfl, h i (by omega) s hs⟩)
    exact this.2
  induction n with
  | zero => omega
  | succ n ih =>
    rw [loop_succ]
    cases hl : loop n f s with
    | ub => rfl
    | ok t =>
      by_cases hkn : k = n
      · subst hkn
        exact hub t (hinv k (by omega) t hl)
      · have := ih (fun i hi => h i (by omega)) (by omega) (fun m hm => hinv m (by omega))
        rw [this] at hl; cases hl

/-! ## the costs -/

theorem sumLoop_eq {M n : Nat} {body : Nat → Nat → Res Nat} {f : Nat → Nat}
    (hb : ∀ i, i < n → ∀ s, s ≤ M → body i s = if s + f i ≤ M then ok (s + f i) else ub) (s : Nat) (hs : s ≤ M) :
    loop n body s = if s + ((List.range n).map f).sum ≤ M then ok (s + ((List.range n).map f).sum) else ub := by
  induction n with
  | zero => simp [hs]
  | succ n ih =>
    rw [loop_succ, ih (fun i hi => hb i (by omega)), List.range_succ, List.map_append, List.sum_append]
    simp only [List.map_cons, List.map_nil, List.sum_cons, List.sum_nil, Nat.add_zero]
    by_cases h : s + ((List.range n).map f).sum ≤ M
    · rw [if_pos h, ok_bind', hb n (by omega) _ h, Nat.add_assoc]
    · rw [if_neg h, if_neg (by omega)]; rfl

/-- number of pairs without a link from the first to the second -/
def missing (isParent : Nat → Nat → Bool) (vs : List Nat) : Nat :=
  ((List.range vs.length).map (fun i =>
    ((List.range (vs.length - (i + 1))).map (fun j' =>
      if isParent (vs.getD i 0) (vs.getD (i + 1 + j') 0) then 0 else 1)).sum)).sum

theorem primaryCost_missing (isParent : Nat → Nat → Bool) (vs : List Nat) : clusterPrimaryCost isParent vs = (missing isParent vs : Int) := by
  unfold clusterPrimaryCost missing
  rw [Nat.cast_list_sum, List.map_map]
  congr 2
  funext i
  simp only [Function.comp]
  rw [Nat.cast_list_sum, List.map_map]
  congr 2
  funext j
  simp only [Function.comp]
  split <;> rfl

theorem primaryCostInt_eq (M : Nat) (isParent : Nat → Nat → Bool) (vs : List Nat) :
    primaryCostInt M isParent vs = if missing isParent vs ≤ M then ok (clusterPrimaryCost isParent vs) else ub := by
  unfold primaryCostInt
  rw [sumLoop_eq (M := M) (f := fun i => ((List.range (vs.length - (i + 1))).map (fun j' =>
      if isParent (vs.getD i 0) (vs.getD (i + 1 + j') 0) then 0 else 1)).sum) ?_ 0 (by omega)]
  · rw [primaryCost_missing]
    unfold missing
    simp only [Nat.zero_add]
    split <;> rfl
  · intro i hi s hs
    apply sumLoop_eq _ s hs
    intro j hj s hs
    have hj' : i + 1 + j < vs.length := by omega
    rw [rd_lt hi, ok_bind, rd_lt hj', ok_bind, List.getD_eq_getElem _ _ hi, List.getD_eq_getElem _ _ hj']
    rfl

theorem missing_le (isParent : Nat → Nat → Bool) (vs : List Nat) : missing isParent vs ≤ vs.length * (vs.length - 1) / 2 := by
  unfold missing
  generalize vs.length = n
  have h1 : ∀ (m : Nat) (f : Nat → Bool), ((List.range m).map (fun j => if f j then 0 else 1)).sum ≤ m := by
    intro m f
    induction m with
    | zero => simp
    | succ m ih =>
      rw [List.range_succ, List.map_append, List.sum_append]
      simp only [List.map_cons, List.map_nil, List.sum_cons, List.sum_nil]
      split <;> omega
  have h2 : ∀ (k : Nat) (f : Nat → Nat), (∀ i, f i ≤ n - (i + 1)) → ((List.range k).map f).sum ≤ ∑ i ∈ Finset.range k, (n - 1 - i) := by
    intro k f hf
    induction k with
    | zero => simp
    | succ k ih =>
      rw [List.range_succ, List.map_append, List.sum_append, Finset.sum_range_succ]
      simp only [List.map_cons, List.map_nil, List.sum_cons, List.sum_nil]
      have := hf k
      omega
  refine (h2 n _ (fun i => h1 _ _)).trans ?_
  rw [Finset.sum_range_reflect (fun i => i) n, Finset.sum_range_id]

theorem secondaryCostInt_loop (M : Nat) (card : Nat → Nat) (vs : List Nat) :
    secondaryCostInt M card vs = (Potential.sizeOfInt M (vs.map card) (vs.map card).length).bind (fun p => ok (p : Int)) := by
  unfold secondaryCostInt Potential.sizeOfInt
  rw [List.length_map]
  show (Res.bind _ _) = _
  congr 1
  refine loop_congr (fun i hi s => ?_)
  rw [rd_lt hi, rd_lt (by simpa using hi), ok_bind, ok_bind]
  simp

theorem secondaryCostInt_eq {M : Nat} {card : Nat → Nat} {vs : List Nat} (h : ∀ k ≤ vs.length, ((vs.take k).map card).prod ≤ M) :
    secondaryCostInt M card vs = ok (clusterSecondaryCost card vs) := by
  rw [secondaryCostInt_loop, sizeOfInt_eq le_rfl (by
    intro k hk
    rw [← List.map_take]
    exact h k (by simpa using hk)), List.take_length]
  show ok _ = ok _
  congr 1
  unfold clusterSecondaryCost
  rw [Nat.cast_list_prod, List.map_map]
  rfl

theorem secondaryCostInt_ub {M : Nat} (hM : 1 ≤ M) {card : Nat → Nat} {vs : List Nat} (h : ∃ k ≤ vs.length, M < ((vs.take k).map card).prod) :
    secondaryCostInt M card vs = ub := by
  obtain ⟨k, h1, h2⟩ := h
  rw [secondaryCostInt_loop, sizeOfInt_ub hM le_rfl ⟨k, by simpa using h1, by rw [← List.map_take]; exact h2⟩]
  rfl

/-! ## building the heap -/

/-- the first cluster of a variable -/
def firstCluster (nodes : List Nat) (edges : List (Nat × Nat)) (v : Nat) : List Nat := v :: nodes.filter (fun u => (v, u) ∈ edges)

theorem insertInt_ok {ptr : Nat} {ca cb : List Nat → Res Int} {pk sk : List Nat → Int} {h : Heap (List Nat)} {c : List Nat}
    (ha : ca c = ok (pk c)) (hb : cb c = ok (sk c)) : Heap.insertInt ptr ca cb h c = Heap.insert ptr pk sk h c := by
  unfold Heap.insertInt
  rw [ha, hb, ok_bind, ok_bind]
  rfl

theorem buildInt_eq (ptr : Nat) {ca cb : List Nat → Res Int} {pk sk : List Nat → Int} {g : Graph} {n : Nat} {nodes : List Nat}
    {edges : List (Nat × Nat)} (h : Holds g n nodes edges)
    (hc : ∀ v ∈ nodes, ca (firstCluster nodes edges v) = ok (pk (firstCluster nodes edges v)) ∧
      cb (firstCluster nodes edges v) = ok (sk (firstCluster nodes edges v))) :
    g.buildClusterHeapInt ptr ca cb = g.buildClusterHeap ptr pk sk := by
  unfold Graph.buildClusterHeapInt Graph.buildClusterHeap
  cases Heap.new (α := List Nat) ptr (g.top : Int) with
  | none => rfl
  | some h0 =>
    simp only
    congr 1
    refine (loop_congr_inv (fun _ st => Holds st.2 n nodes edges) h ?_).1
    rintro i hi ⟨hp, g1⟩ hH
    simp only at hH
    rw [h.top] at hi
    obtain ⟨g2, c1, c2⟩ := cluster_eq hH (List.getElem_mem hi)
    obtain ⟨k1, k2⟩ := hc nodes[i] (List.getElem_mem hi)
    simp only [vars_at hH hi, ok_bind, c1]
    unfold firstCluster at k1 k2
    rw [insertInt_ok k1 k2]
    refine ⟨rfl, ?_⟩
    rintro ⟨hp', g3⟩ hs
    cases hins : Heap.insert ptr pk sk hp (nodes[i] :: nodes.filter (fun u => (nodes[i], u) ∈ edges)) with
    | ub => rw [hins] at hs; cases hs
    | ok hp2 =>
      rw [hins] at hs
      cases hs
      exact c2

theorem buildInt_ub (ptr : Nat) {ca cb : List Nat → Res Int} {g : Graph} {n : Nat} {nodes : List Nat}
    {edges : List (Nat × Nat)} (h : Holds g n nodes edges) {v : Nat} (hv : v ∈ nodes)
    (hc : ca (firstCluster nodes edges v) = ub ∨ cb (firstCluster nodes edges v) = ub) :
    g.buildClusterHeapInt ptr ca cb = ub := by
  have hpos := List.length_pos_of_mem hv
  unfold Graph.buildClusterHeapInt
  have hnew : Heap.new ptr (g.top : Int) = some (⟨[], nodes.length, nodes.length * ptr, false, []⟩ : Heap (List Nat)) := by
    unfold Heap.new; rw [h.top, if_neg (by omega)]; simp
  rw [hnew]
  simp only
  obtain ⟨k, hk, hkv⟩ := List.getElem_of_mem hv
  rw [loop_ub_at (fun _ st => Holds st.2 n nodes edges) h ?_ (k := k) (by rw [h.top]; exact hk) ?_]
  · rfl
  · rintro i hi ⟨hp, g1⟩ hH ⟨hp', g3⟩ hs
    simp only at hH
    rw [h.top] at hi
    obtain ⟨g2, c1, c2⟩ := cluster_eq hH (List.getElem_mem hi)
    simp only [vars_at hH hi, ok_bind, c1] at hs
    cases hins : Heap.insertInt ptr ca cb hp (nodes[i] :: nodes.filter (fun u => (nodes[i], u) ∈ edges)) with
    | ub => rw [hins] at hs; cases hs
    | ok hp2 =>
      rw [hins] at hs
      cases hs
      exact c2
  · rintro ⟨hp, g1⟩ hH
    simp only at hH
    obtain ⟨g2, c1, c2⟩ := cluster_eq hH (List.getElem_mem hk)
    simp only [vars_at hH hk, ok_bind, c1]
    rw [hkv]
    unfold firstCluster at hc
    unfold Heap.insertInt
    rcases hc with hc | hc
    · rw [hc]; rfl
    · rw [hc]
      cases ca (v :: nodes.filter (fun u => (v, u) ∈ edges)) <;> rfl

/-! ## the rounds -/

/-- different variables of the graph -/
def GoodCluster (nodes : List Nat) (c : List Nat) : Prop := c.Nodup ∧ ∀ v ∈ c, v ∈ nodes

theorem setItemInt_ok {ca cb : List Nat → Res Int} {pk sk : List Nat → Int} {h : Heap (List Nat)} {c : List Nat}
    (ha : ca c = ok (pk c)) (hb : cb c = ok (sk c)) (index size : Int) :
    Heap.setItemInt ca cb h index c size = ok (Heap.setItem pk sk h index c size) := by
  unfold Heap.setItemInt
  split
  · rename_i h1
    unfold Heap.setItem
    rw [if_pos h1]
  · rw [ha, hb, ok_bind, ok_bind]
    rfl

theorem updateInt_heap {ca cb : List Nat → Res Int} {pk sk : List Nat → Int} {nodes : List Nat}
    (hg : ∀ c, GoodCluster nodes c → ca c = ok (pk c) ∧ cb c = ok (sk c)) {h : Heap (List Nat)}
    (hh : ∀ c ∈ h.items.map (·.content), GoodCluster nodes c) {cluster : List Nat} (hcl : GoodCluster nodes cluster) :
    updateClusterHeapInt ca cb h cluster = updateClusterHeap pk sk h cluster := by
  unfold updateClusterHeapInt updateClusterHeap
  cases hrem : rd cluster 0 with
  | ub => rfl
  | ok removed =>
    simp only [ok_bind]
    congr 1
    refine (loop_congr_inv (fun _ (h : Heap (List Nat)) => ∀ c ∈ h.items.map (·.content), GoodCluster nodes c) hh ?_).1
    intro i hi h1 hh1
    cases hrd : rd cluster (i + 1) with
    | ub => exact ⟨rfl, fun s' hs => by cases hs⟩
    | ok v =>
      simp only [ok_bind]
      cases h1.search (familyCluster v) with
      | none => exact ⟨rfl, fun s' hs => by cases hs⟩
      | some m =>
        simp only
        generalize (m : Int) = index
        cases hget : h1.getItem index with
        | none => exact ⟨rfl, fun s' hs => by cases hs⟩
        | some old =>
          simp only
          have hold : GoodCluster nodes old := by
            unfold Heap.getItem at hget
            split at hget
            · cases hget
            · obtain ⟨it, h2, h3⟩ := Option.map_eq_some_iff.mp hget
              exact hh1 _ (List.mem_map.mpr ⟨it, List.mem_of_getElem? h2, h3⟩)
          obtain ⟨newc, k1, k2⟩ := removeVar_eq removed (old ++ cluster.filter (· ∉ old))
          simp only [variableUnion_eq old cluster hold.1 hcl.1, ok_bind, k1, k2]
          have hgood : GoodCluster nodes ((old ++ cluster.filter (· ∉ old)).filter (· ≠ removed)) := by
            constructor
            · apply List.Nodup.filter
              rw [List.nodup_append]
              refine ⟨hold.1, hcl.1.filter _, ?_⟩
              rintro a ha b hb rfl
              simp only [List.mem_filter, decide_eq_true_eq] at hb
              exact hb.2 ha
            · intro u hu
              rcases List.mem_append.mp (List.mem_filter.mp hu).1 with h2 | h2
              · exact hold.2 u h2
              · exact hcl.2 u (List.mem_filter.mp h2).1
          obtain ⟨e1, e2⟩ := hg _ hgood
          rw [setItemInt_ok e1 e2]
          refine ⟨rfl, ?_⟩
          intro s' hs c hc
          cases hs
          unfold Heap.setItem at hc
          split at hc
          · exact hh1 c hc
          · obtain ⟨it, h2, rfl⟩ := List.mem_map.mp hc
            rcases List.mem_or_eq_of_mem_set h2 with h3 | h3
            · exact hh1 _ (List.mem_map.mpr ⟨it, h3, rfl⟩)
            · rw [h3]; exact hgood

theorem triRoundInt_eq {ca cb : List Nat → Res Int} {pk sk : List Nat → Int} {n : Nat} {nodes : List Nat}
    (hg : ∀ c, GoodCluster nodes c → ca c = ok (pk c) ∧ cb c = ok (sk c)) {st : TriState} {R : Finset Nat}
    {edges : List (Nat × Nat)} {K : List (Finset Nat)} (h : TInv n nodes st R edges K) :
    triRoundInt ca cb n st = triRound pk sk n st := by
  have hgood : ∀ c ∈ st.heap.items.map (·.content), GoodCluster nodes c := by
    intro c hc
    obtain ⟨_, h2, h3⟩ := h.item c hc
    refine ⟨h2, fun u hu => ?_⟩
    have hhead : c.headD 0 ∈ R := by
      have := h.heads.subset (List.mem_map.mpr ⟨c, hc, rfl⟩)
      simpa using this
    rcases (h3 u).mp hu with rfl | h4
    · exact h.sub _ hhead
    · exact h.sub _ h4.1
  unfold triRoundInt triRound
  by_cases hpos : 0 < st.heap.items.length
  · obtain ⟨hp, e1, e2, _⟩ := Heap.extractMin_perm st.heap hpos
    rw [e1, ok_bind, ok_bind]
    have hc : GoodCluster nodes st.heap.items[0].content := hgood _ (List.mem_map.mpr ⟨_, List.getElem_mem hpos, rfl⟩)
    have hp' : ∀ c ∈ hp.items.map (·.content), GoodCluster nodes c := by
      intro c hc
      obtain ⟨it, h2, rfl⟩ := List.mem_map.mp hc
      exact hgood _ (List.mem_map.mpr ⟨it, e2.subset (List.mem_cons_of_mem _ h2), rfl⟩)
    simp only [updateInt_heap hg hp' hc]
  · have : st.heap.extractMin = ok (none, st.heap) := by unfold Heap.extractMin; rw [if_pos (by omega)]
    rw [this]; rfl

theorem triangulateInt_eq (ptr : Nat) {ca cb : List Nat → Res Int} {pk sk : List Nat → Int} {g : Graph} {n : Nat} {nodes : List Nat} {edges : List (Nat × Nat)}
    (hg : ∀ c, GoodCluster nodes c → ca c = ok (pk c) ∧ cb c = ok (sk c))
    (h : Holds g n nodes edges) (hfull : nodes.length = n) (hne : nodes ≠ [])
    (hsymm : ∀ a b, a ∈ nodes → b ∈ nodes → (a, b) ∈ edges → (b, a) ∈ edges) (hirr : ∀ a, (a, a) ∉ edges) :
    triangulateInt ptr ca cb g = triangulate ptr pk sk g := by
  have hfirst : ∀ v ∈ nodes, GoodCluster nodes (firstCluster nodes edges v) := by
    intro v hv
    refine ⟨List.nodup_cons.mpr ⟨?_, h.nodup.filter _⟩, ?_⟩
    · intro hm
      simp only [List.mem_filter, decide_eq_true_eq] at hm
      exact hirr v hm.2
    · intro u hu
      rcases List.mem_cons.mp hu with rfl | hu
      · exact hv
      · exact (List.mem_filter.mp hu).1
  unfold triangulateInt triangulate
  rw [buildInt_eq ptr h (fun v hv => hg _ (hfirst v hv))]
  obtain ⟨hp, g', b1, b2, b3⟩ := buildClusterHeap_eq ptr pk sk h hne
  have hinv := triangulate_start h hne hsymm hirr b2 b3
  simp only [b1, ok_bind, h.size]
  congr 1
  refine (loop_congr_inv (fun i st => ∃ R edges K, TInv n nodes st R edges K ∧ R.card = n - i)
    ⟨_, _, _, hinv, by rw [List.toFinset_card_of_nodup h.nodup, hfull]; rfl⟩ ?_).1
  rintro i hi st ⟨R, edges1, K, hT, hR⟩
  refine ⟨triRoundInt_eq hg hT, fun s' hs => ?_⟩
  obtain ⟨st1, v, c, edges2, r1, r2, r3, r4, r5⟩ := triRound_eq pk sk hT hfull (Finset.card_pos.mp (by omega))
  rw [r1] at hs
  cases hs
  exact ⟨_, _, _, r4, by rw [Finset.card_erase_of_mem r2]; omega⟩

theorem triangulateInt_ub (ptr : Nat) {ca cb : List Nat → Res Int} {g : Graph} {n : Nat} {nodes : List Nat}
    {edges : List (Nat × Nat)} (h : Holds g n nodes edges) {v : Nat} (hv : v ∈ nodes)
    (hc : ca (firstCluster nodes edges v) = ub ∨ cb (firstCluster nodes edges v) = ub) : triangulateInt ptr ca cb g = ub := by
  unfold triangulateInt
  rw [buildInt_ub ptr h hv hc, ub_bind]

/-- if the product over all variables fits, the costs of all clusters fit -/
theorem goodCost {M : Nat} {isParent : Nat → Nat → Bool} {card : Nat → Nat} {nodes : List Nat} (hpairs : nodes.length * (nodes.length - 1) / 2 ≤ M)
    (hcard : ∀ v ∈ nodes, 0 < card v) (hall : (nodes.map card).prod ≤ M) (c : List Nat) (hc : GoodCluster nodes c) :
    primaryCostInt M isParent c = ok (clusterPrimaryCost isParent c) ∧ secondaryCostInt M card c = ok (clusterSecondaryCost card c) := by
  have hsp : c.Subperm nodes := List.subperm_of_subset hc.1 hc.2
  have hlen := hsp.length_le
  constructor
  · rw [primaryCostInt_eq, if_pos]
    refine (missing_le isParent c).trans (le_trans ?_ hpairs)
    exact Nat.div_le_div_right (Nat.mul_le_mul hlen (by omega))
  · apply secondaryCostInt_eq
    intro k _
    refine le_trans ?_ hall
    have hsk : (c.take k).Subperm nodes := (List.take_sublist k c).subperm.trans hsp
    obtain ⟨l, hl, hs⟩ := hsk
    rw [← (hl.map card).prod_eq]
    obtain ⟨r, hr⟩ := (hs.map card).exists_perm_append
    rw [hr.prod_eq, List.prod_append]
    refine Nat.le_mul_of_pos_right _ (prod_pos ?_)
    intro x hx
    have : x ∈ nodes.map card := hr.symm.subset (List.mem_append_right _ hx)
    obtain ⟨v, hv, rfl⟩ := List.mem_map.mp this
    exact hcard v hv

end Nip
