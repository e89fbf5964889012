import Verif.GenerateLemmas
import Verif.Ascend

/-! # The probability of generated data -/

namespace Nip

open Res Spec Model

set_option linter.unusedSectionVars false

variable {K : Type} [Field K] [LinearOrder K] [IsStrictOrderedRing K]

/-! ### slices in which nothing is seen -/

/-- a slice in which nothing is seen adds nothing to the total, if its weights add up to one once the variables determined by the slice before are given -/
theorem hide_total {f : NetFile K} (hf : f.Valid) (htm : f.Temporal) {P : Nat → Asg → K} {seen : Nat → Nat → Int}
    (hslice : ∀ t x, Legal f.card f.vars x → slice f (hide seen t) t x = P t x)
    (hsum : ∀ t x, sumOver f.card (f.vars.filter (fun v => decide (t = 0 ∨ f.next v = none))) (P t) x = 1) (t : Nat) :
    total f (hide seen t) (t + 1) = total f seen t := by
  classical
  have hnd : f.vars.Nodup := hf.sorted.imp ne_of_lt
  rw [total_succ]
  show sumOver f.card f.vars _ _ = _
  cases t with
  | zero =>
    rw [total_zero, ← hsum 0 (fun _ => 0)]
    have : f.vars.filter (fun v => decide (0 = 0 ∨ f.next v = none)) = f.vars := List.filter_eq_self.mpr (by simp)
    rw [this]
    refine sumOver_legal (U := f.vars) (fun z hz => ?_) _ _ (fun v hv hn => absurd hv hn)
    rw [hslice _ z hz]
    simp [fwd]
  | succ s =>
    rw [total_succ]
    show _ = sumOver f.card f.vars _ _
    have hfw : ∀ y, fwd f (hide seen (s + 1)) (s + 1) y =
        sumOver f.card f.vars (fun x => if f.Linked x y then slice f seen s x * fwd f seen s x else 0) (fun _ => 0) := by
      intro y
      rw [fwd_seen (fun s' hs => hide_lt seen hs), fwd]
    rw [sumOver_legal (U := f.vars) (g := fun y => sumOver f.card f.vars (fun x => slice f seen s x * fwd f seen s x *
      (if f.Linked x y then P (s + 1) y else 0)) (fun _ => 0)) (fun y hy => by
        rw [hslice _ y hy, hfw, ← sumOver_const_mul]
        refine sumOver_congr' fun x => ?_
        split <;> ring) _ _ (fun v hv hn => absurd hv hn), sumOver_comm]
    refine sumOver_legal (U := f.vars) (fun x hx => ?_) _ _ (fun v hv hn => absurd hv hn)
    rw [sumOver_const_mul]
    suffices h : sumOver f.card f.vars (fun y => if f.Linked x y then P (s + 1) y else 0) (fun _ => 0) = 1 by rw [h, mul_one]
    obtain ⟨B, hB⟩ : ∃ B, B = f.vars.filter (fun v => decide (f.next v ≠ none)) := ⟨_, rfl⟩
    obtain ⟨y0, hy0⟩ : ∃ y0 : Asg, y0 = fun v => if v ∈ B then (match f.next v with | some u => x u | none => 0) else 0 := ⟨_, rfl⟩
    have hBm : ∀ v, v ∈ B ↔ v ∈ f.vars ∧ f.next v ≠ none := by intro v; rw [hB, List.mem_filter, decide_eq_true_eq]
    have hfix := sumOver_fix (card := f.card) hnd (B := B) (by rw [hB]; exact hnd.filter _) (fun u hu => ((hBm u).mp hu).1) (y := y0) (by
      intro u hu
      obtain ⟨h1, h2⟩ := (hBm u).mp hu
      rw [hy0]
      simp only [if_pos hu]
      cases e : f.next u with
      | none => exact absurd e h2
      | some w =>
        obtain ⟨h3, h4⟩ := htm.states u h1 w e
        simp only
        rw [← h4]
        exact hx w h3) (by intro u hu; rw [hy0]; simp only [if_neg hu]) (fun y => P (s + 1) y)
    have hV : f.vars.filter (· ∉ B) = f.vars.filter (fun v => decide (s + 1 = 0 ∨ f.next v = none)) := by
      apply List.filter_congr
      intro v hv
      rw [Bool.eq_iff_iff, decide_eq_true_eq, decide_eq_true_eq, hBm]
      simp [hv]
    rw [hV, hsum] at hfix
    rw [hfix]
    refine sumOver_congr' fun y => ?_
    have hl : f.Linked x y ↔ ∀ u ∈ B, y u = y0 u := by
      constructor
      · intro h u hu
        obtain ⟨h1, h2⟩ := (hBm u).mp hu
        rw [hy0]
        simp only [if_pos hu]
        cases e : f.next u with
        | none => exact absurd e h2
        | some w => exact h u h1 w e
      · intro h u hu w hw
        have hw' : f.next u = some w := hw
        have hb : u ∈ B := (hBm u).mpr ⟨hu, by rw [hw']; simp⟩
        have := h u hb
        rw [hy0] at this
        simp only [if_pos hb, hw'] at this
        exact this
    by_cases h : f.Linked x y
    · rw [if_pos h, if_pos (hl.mp h)]
    · rw [if_neg h, if_neg (fun h' => h (hl.mpr h'))]

/-- the tables that count in a slice -/
def active (f : NetFile K) (t : Nat) : List (Parsed K) := f.pots.filter (fun q => decide (t = 0 ∨ f.next q.child = none))

theorem family_alone {f : NetFile K} (hf : f.Valid) {q : Parsed K} (hq : q ∈ f.pots) (hp : q.parents = []) : f.family q = [q.child] := by
  have hnd : f.vars.Nodup := hf.sorted.imp ne_of_lt
  unfold NetFile.family
  rw [hp]
  have h1 : (f.vars.filter (fun v => decide (v = q.child ∨ v ∈ ([] : List Nat)))).Perm [q.child] := by
    rw [List.perm_ext_iff_of_nodup (hnd.filter _) (by simp)]
    intro v
    simp only [List.mem_filter, List.not_mem_nil, or_false, decide_eq_true_eq, List.mem_singleton]
    constructor
    · rintro ⟨_, h⟩; exact h
    · rintro rfl; exact ⟨hf.child q hq, rfl⟩
  exact List.perm_singleton.mp h1

theorem entry_alone {f : NetFile K} (hf : f.Valid) {q : Parsed K} (hq : q ∈ f.pots) (hp : q.parents = []) {x : Asg} (hx : x q.child < f.card q.child) :
    f.entry q x = q.table.data.getD (x q.child) 0 := by
  unfold NetFile.entry
  rw [family_alone hf hq hp]
  obtain ⟨h1, h2⟩ := hf.shape q hq
  rw [family_alone hf hq hp] at h1
  have hl : q.table.data.length = f.card q.child := by rw [h2, h1]; simp
  unfold Potential.at'
  rw [h1]
  unfold cellOf
  simp [position]

/-- the weight of a slice is the product of the tables that count and of what is seen -/
theorem proper_slice {f : NetFile K} (hf : f.Valid) (hp : f.Proper) (seen : Nat → Nat → Int) (t : Nat) {x : Asg} (hx : Legal f.card f.vars x) :
    slice f seen t x = tablesProd f (active f t) x * visible f (seen t) x := by
  classical
  have hnd : f.vars.Nodup := hf.sorted.imp ne_of_lt
  have hw : ∀ q ∈ f.pots, f.entry q (wrap f.card x) = f.entry q x := by
    intro q hq
    unfold NetFile.entry
    congr 1
    apply List.map_congr_left
    intro u hu
    exact Nat.mod_eq_of_lt (hx u (List.mem_filter.mp hu).1)
  unfold slice NetFile.sliceWeight weightOf
  show _ * visible f (seen t) x = _
  congr 1
  have hroots : f.net.roots.Perm ((f.pots.filter (fun q => decide (q.parents = []))).map (fun q => q.child)) := by
    show (f.vars.filter (fun v => decide (∀ q ∈ f.pots, q.child = v → q.parents = []))).Perm _
    rw [List.perm_ext_iff_of_nodup (hnd.filter _) (hf.distinct.sublist (List.filter_sublist.map _))]
    intro v
    simp only [List.mem_filter, List.mem_map, decide_eq_true_eq]
    constructor
    · rintro ⟨h1, h2⟩
      obtain ⟨q, h3, h4⟩ := hp.complete v h1
      exact ⟨q, ⟨h3, h2 q h3 h4⟩, h4⟩
    · rintro ⟨q, ⟨h3, h4⟩, rfl⟩
      refine ⟨hf.child q h3, fun q' h5 h6 => ?_⟩
      rw [List.inj_on_of_nodup_map hf.distinct h5 h3 h6]
      exact h4
  rw [(hroots.map _).prod_eq, List.map_map]
  show ((f.pots.filter (fun q => decide (q.parents ≠ []))).map (fun q => f.entry q x)).prod * _ = _
  unfold tablesProd active
  rw [prod_filter, prod_filter, prod_filter, ← List.prod_map_mul]
  congr 1
  apply List.map_congr_left
  intro q hq
  have hc := hf.child q hq
  by_cases hg : q.parents = []
  · have hpr : f.net.prior q.child = q.table.data := by
      show (match f.pots.find? (fun q' => decide (q'.child = q.child)) with | some q => q.table.data | none => _) = _
      rw [find_child hf hq]
    have hus : Usable (f.net.card q.child) (f.net.prior q.child) := by
      by_contra hno
      have hz : ∀ i, i < f.card q.child → q.table.data.getD i 0 = 0 := by
        intro i hi
        refine le_antisymm (not_lt.mp fun h => hno ⟨i, hi, by rw [hpr]; exact h⟩) ?_
        exact getD_nonneg (hf.nonneg q hq) _
      have := hp.normalised q hq x hx
      rw [Finset.sum_eq_zero fun j hj => by
        rw [entry_alone hf hq hg (by simpa using hj)]
        simpa using hz j (Finset.mem_range.mp hj)] at this
      exact zero_ne_one this
    simp only [hg, ne_eq, not_true, decide_false, Bool.false_eq_true, if_false, decide_true, if_true, one_mul, Function.comp, decide_eq_true_eq]
    rw [hpr, ← entry_alone hf hq hg (hx _ hc), hw q hq]
    rw [hpr] at hus
    by_cases hn : t = 0 ∨ f.next q.child = none
    · rw [if_pos ⟨hn, hus⟩, if_pos hn]
    · rw [if_neg (fun h => hn h.1), if_neg hn]
  · have hn : t = 0 ∨ f.next q.child = none := Or.inr (by_contra fun h => hg (hp.free _ hc h q hq rfl))
    simp [hg, hn, hw q hq]

theorem active_sum {f : NetFile K} (hf : f.Valid) (hp : f.Proper) (t : Nat) (x : Asg) :
    sumOver f.card (f.vars.filter (fun v => decide (t = 0 ∨ f.next v = none))) (tablesProd f (active f t)) x = 1 := by
  have hnd : f.vars.Nodup := hf.sorted.imp ne_of_lt
  obtain ⟨rank, hr⟩ := hp.acyclic
  have hn1 : ((active f t).map (fun q => q.child)).Nodup := hf.distinct.sublist (List.filter_sublist.map _)
  refine sum_one hf hp.normalised hr _ (active f t) _ rfl (fun q hq => (List.mem_filter.mp hq).1) hn1 ?_ x
  rw [List.perm_ext_iff_of_nodup (hnd.filter _) hn1]
  intro v
  unfold active
  simp only [List.mem_filter, List.mem_map, decide_eq_true_eq]
  constructor
  · rintro ⟨h1, h2⟩
    obtain ⟨q, h3, rfl⟩ := hp.complete v h1
    exact ⟨q, ⟨h3, h2⟩, rfl⟩
  · rintro ⟨q, ⟨h3, h4⟩, rfl⟩
    exact ⟨hf.child q h3, h4⟩

/-- a slice in which nothing is seen adds nothing to the total -/
theorem proper_hide {f : NetFile K} (hf : f.Valid) (htm : f.Temporal) (hp : f.Proper) (seen : Nat → Nat → Int) (t : Nat) :
    total f (hide seen t) (t + 1) = total f seen t := by
  refine hide_total hf htm (P := fun t => tablesProd f (active f t)) (fun s x hx => ?_) (active_sum hf hp) t
  have : hide seen s s = fun _ => -1 := by funext v; simp [hide]
  rw [proper_slice hf hp _ _ hx, this, visible_unseen f hx, mul_one]

/-! ### one value after the other -/

theorem drawnBefore_now (order : List Nat) (data : List (List Int)) (t i : Nat) : drawnBefore order data t i t = known order (data.getD t []) i := by
  funext v; simp [drawnBefore]

theorem drawnBefore_past (order : List Nat) (data : List (List Int)) (t i i' : Nat) {s : Nat} (hs : s < t) :
    drawnBefore order data t i s = drawnBefore order data t i' s := by
  funext v; simp [drawnBefore, hs]

/-- the weight once one more value is drawn -/
theorem draw_slice {f : NetFile K} (hf : f.Valid) {order : List Nat} (hn : order.Nodup) (hsub : ∀ v ∈ order, v ∈ f.vars) {data : List (List Int)} {t i k : Nat}
    (hi : i < order.length) (hk : (data.getD t [])[i]? = some (k : Int)) {x : Asg} (hx : Legal f.card f.vars x) :
    slice f (drawnBefore order data t (i + 1)) t x = if x order[i] = k then slice f (drawnBefore order data t i) t x else 0 := by
  classical
  have hnd : f.vars.Nodup := hf.sorted.imp ne_of_lt
  have hv := hsub _ (List.getElem_mem hi)
  unfold slice NetFile.sliceWeight weightOf
  rw [drawnBefore_now, drawnBefore_now, vision_known_succ f.card hn hi hk]
  obtain ⟨R, h1, h2⟩ := evidence_prod (net := f.net) hnd hv (vision f.card (known order (data.getD t []) i)) (indicator (f.card order[i]) (k : Int)) x
  rw [h1, h2, vision_known_next f.card hn _ hi, getD_ones (hx _ hv)]
  have : (indicator (f.card order[i]) (k : Int) : List K).getD (x order[i]) 0 = if x order[i] = k then 1 else 0 := by
    have hxl := hx _ hv
    unfold indicator
    rw [List.getD_eq_getElem _ _ (by simpa using hxl)]
    simp
  rw [this]
  split <;> simp

theorem draw_total {f : NetFile K} (hf : f.Valid) {order : List Nat} (hn : order.Nodup) (hsub : ∀ v ∈ order, v ∈ f.vars) {data : List (List Int)} {t i k : Nat}
    (hi : i < order.length) (hk : (data.getD t [])[i]? = some (k : Int)) :
    total f (drawnBefore order data t (i + 1)) (t + 1) = f.unrolledTotal (drawnBefore order data t i) (t + 1) (fun X => X t order[i] = k) := by
  classical
  have h := unrolledTotal_eq f (drawnBefore order data t i) t 0 (fun x => x order[i] = k)
  rw [show t + 1 + 0 = t + 1 from rfl] at h
  rw [h, total_succ]
  refine sumOver_legal (U := f.vars) (fun x hx => ?_) _ _ (fun v hv hn => absurd hv hn)
  rw [draw_slice hf hn hsub hi hk hx, fwd_seen (fun s hs => drawnBefore_past order data t (i + 1) i hs)]
  simp only [bwd, mul_one]
  split <;> simp

/-- the total is split among the states -/
theorem draw_chain {f : NetFile K} (hf : f.Valid) {order : List Nat} (hn : order.Nodup) (hsub : ∀ v ∈ order, v ∈ f.vars) {data : List (List Int)} {t i k : Nat}
    (hi : i < order.length) (hk : (data.getD t [])[i]? = some (k : Int)) (hlt : k < f.card order[i]) :
    total f (drawnBefore order data t (i + 1)) (t + 1) =
      total f (drawnBefore order data t i) (t + 1) * (f.unrolledPosterior (drawnBefore order data t i) (t + 1) t order[i]).getD k 0 := by
  have hz := draw_total hf hn hsub hi hk
  have hp : (f.unrolledPosterior (drawnBefore order data t i) (t + 1) t order[i]).getD k 0 =
      total f (drawnBefore order data t (i + 1)) (t + 1) / total f (drawnBefore order data t i) (t + 1) := by
    unfold NetFile.unrolledPosterior
    rw [List.getD_eq_getElem _ _ (by simpa using hlt), hz]
    simp [total]
  rw [hp]
  by_cases h0 : total f (drawnBefore order data t i) (t + 1) = 0
  · rw [h0, zero_mul]
    refine le_antisymm ?_ (total_nonneg hf _ _)
    rw [← h0, total_succ, total_succ]
    refine sumOver_mono_legal (fun x hx => ?_) _
    rw [draw_slice hf hn hsub hi hk hx, fwd_seen (fun s hs => drawnBefore_past order data t (i + 1) i hs)]
    refine mul_le_mul_of_nonneg_right ?_ (fwd_nonneg hf _ _ _)
    split
    · exact le_refl _
    · exact slice_nonneg hf _ _ _
  · field_simp

theorem chain_slice {f : NetFile K} (hf : f.Valid) {order : List Nat} (hn : order.Nodup) (hsub : ∀ v ∈ order, v ∈ f.vars) {data : List (List Int)} {t : Nat}
    (hd : ∀ (i : Nat) (v : Nat), order[i]? = some v → ∃ k : Nat, (data.getD t [])[i]? = some (k : Int) ∧ k < f.card v) :
    ∀ i, i ≤ order.length → total f (drawnBefore order data t i) (t + 1) =
      total f (drawnBefore order data t 0) (t + 1) * ∏ j ∈ Finset.range i, f.chance order data t j := by
  intro i
  induction i with
  | zero => intro _; simp
  | succ i ih =>
    intro hi
    obtain ⟨k, h1, h2⟩ := hd i order[i] (List.getElem?_eq_getElem (by omega))
    rw [draw_chain hf hn hsub (by omega) h1 h2, ih (by omega), Finset.prod_range_succ, mul_assoc]
    congr 2
    unfold NetFile.chance
    rw [List.getD_eq_getElem _ _ (by omega : i < order.length), show (data.getD t []).getD i 0 = (data.getD t [])[i]?.getD 0 from List.getD_eq_getElem?_getD, h1]
    simp

theorem chain_all {f : NetFile K} (hf : f.Valid) (htm : f.Temporal) (hp : f.Proper) {order : List Nat} (hn : order.Nodup) (hsub : ∀ v ∈ order, v ∈ f.vars)
    {data : List (List Int)} {length : Nat}
    (hd : ∀ t, t < length → ∀ (i : Nat) (v : Nat), order[i]? = some v → ∃ k : Nat, (data.getD t [])[i]? = some (k : Int) ∧ k < f.card v) :
    ∀ t, t ≤ length → total f (drawnBefore order data t 0) t = ∏ s ∈ Finset.range t, ∏ i ∈ Finset.range order.length, f.chance order data s i := by
  intro t
  induction t with
  | zero => intro _; rw [total_zero]; simp
  | succ t ih =>
    intro ht
    rw [Finset.prod_range_succ, ← ih (by omega)]
    have h1 := chain_slice hf hn hsub (hd t (by omega)) order.length (le_refl _)
    have h2 : total f (drawnBefore order data (t + 1) 0) (t + 1) = total f (drawnBefore order data t order.length) (t + 1) := by
      refine total_seen fun s hs => ?_
      funext v
      unfold drawnBefore
      rw [if_pos hs]
      by_cases e : s < t
      · rw [if_pos e]
      · have : s = t := by omega
        subst this
        simp
    have h3 : total f (drawnBefore order data t 0) (t + 1) = total f (drawnBefore order data t 0) t := by
      rw [← proper_hide hf htm hp (drawnBefore order data t 0) t]
      refine total_seen fun s hs => ?_
      funext v
      unfold hide
      by_cases e : s = t
      · subst e; simp [drawnBefore, known]
      · rw [if_neg e]
    rw [h2, h1, h3]

end Nip
