import Verif.RoundTrip
import Mathlib.Tactic.Linarith

/-! # The network that is read from the text printed by `write_model` -/

namespace Nip

open Res Spec

set_option linter.unusedSectionVars false

variable {K : Type} [Field K] [LinearOrder K] [IsStrictOrderedRing K]

theorem renamed_lt {f : NetFile K} (hf : f.Valid) {base u v : Nat} (hu : u ∈ f.vars) (hv : v ∈ f.vars) (h : u < v) : renamed f base u < renamed f base v := by
  have h1 := List.idxOf_lt_length_of_mem hu
  have h2 := List.idxOf_lt_length_of_mem hv
  have e1 : f.vars[f.vars.idxOf u] = u := List.getElem_idxOf h1
  have e2 : f.vars[f.vars.idxOf v] = v := List.getElem_idxOf h2
  unfold renamed
  rcases lt_trichotomy (f.vars.idxOf u) (f.vars.idxOf v) with h3 | h3 | h3
  · omega
  · have := (List.idxOf_inj hu).1 h3
    omega
  · have := List.pairwise_iff_getElem.1 hf.sorted _ _ h2 h1 h3
    omega

section Back

variable {fmt : K → List Char} {r : ReadModel K} (hf : r.file.Valid) (hp : r.Printable) {tab : Nat → Potential K} {value : List Char → K} {base : Nat}
  {g : NetFile K} (hD : (printedText fmt r tab).Describes value base g)
include hf hp hD

theorem back_vars : g.vars = r.file.vars.map (renamed r.file base) := by
  rw [hD.vars, map_renamed (hf.sorted.imp ne_of_lt)]
  congr 1
  rw [← hp.ids]
  simp [printedText]

theorem back_card {v : Nat} (hv : v ∈ r.file.vars) : g.card (renamed r.file base v) = r.file.card v := by
  have h := hD.card _ (printed_mem hf hp tab hv)
  rw [(states_printed hf hp _ _).1, states_length hf hp hv] at h
  rw [← h]
  show _ = g.card (base + (printedText fmt r tab).place (recOf r.nodes v).symbol)
  rw [place_printed hf hp tab hv]
  rfl

theorem back_next {v : Nat} (hv : v ∈ r.file.vars) : g.next (renamed r.file base v) = (r.file.next v).map (renamed r.file base) := by
  have h := hD.next _ (printed_mem hf hp tab hv)
  rw [(states_printed hf hp _ _).2.2.1, Option.map_map] at h
  have h1 : base + (printedText fmt r tab).place (recOf r.nodes v).symbol = renamed r.file base v := by rw [place_printed hf hp tab hv]; rfl
  have h2 : g.next (base + (printedText fmt r tab).place (recOf r.nodes v).symbol) = _ := h
  rw [h1] at h2
  rw [h2]
  cases hn : r.file.next v with
  | none => rfl
  | some u =>
    simp only [Option.map_some, Function.comp_apply]
    rw [place_printed hf hp tab (hp.next v hv u hn).1]
    rfl

/-- the table for a variable -/
theorem back_pot (ht : Model.TablesIn r.file tab) {v : Nat} (hv : v ∈ r.file.vars) :
    ∃ q ∈ g.pots, ∃ ps, Stored g (renamed r.file base v) ps (some ((fullTable r.file tab v).data.map (fun a => value (fmt a)))) q ∧
      ps.getD [] = (r.file.givens v).reverse.map (renamed r.file base) := by
  have hmem : (recOf r.nodes v).symbol ∈ (printedText fmt r tab).pots.map (fun p => p.child) := by
    rw [children_printed hf hp]
    exact List.mem_map_of_mem (f := fun v => (recOf r.nodes v).symbol) ((mem_order hf hp).2 hv)
  obtain ⟨p, hpp, hpc⟩ := List.mem_map.1 hmem
  obtain ⟨v', hv', p1, p2, _, gr, p4, p5⟩ := printed_pot hf hp tab ht hpp
  have : v' = v := symbol_inj hf hp hv' hv (by rw [← p1]; exact hpc)
  subst this
  obtain ⟨i, hi, hpi⟩ := List.mem_iff_getElem.1 hpp
  obtain ⟨hl, hall⟩ := List.forall₂_iff_get.1 hD.pots
  have hst := hall i hi (hl ▸ hi)
  rw [List.get_eq_getElem, List.get_eq_getElem, hpi] at hst
  refine ⟨_, List.getElem_mem (hl ▸ hi), p.parents.map (fun l => l.map (fun w => base + (printedText fmt r tab).place w)), ?_, ?_⟩
  · rw [p1, place_printed hf hp tab hv', p4] at hst
    simp only [Option.map_some, p5, List.map_map] at hst
    exact hst
  · have h1 : (p.parents.map (fun l => l.map (fun w => base + (printedText fmt r tab).place w))).getD [] =
        (p.parents.getD []).map (fun w => base + (printedText fmt r tab).place w) := by cases p.parents <;> rfl
    rw [h1, p2, ← List.map_reverse, List.map_map, List.map_map]
    refine List.map_congr_left fun u hu => ?_
    have hu := ((givens_spec hf v').2 u (List.mem_reverse.1 hu)).1
    simp only [Function.comp_apply]
    rw [place_printed hf hp tab hu]
    rfl

theorem back_parents (ht : Model.TablesIn r.file tab) (hg : g.Valid) {v : Nat} (hv : v ∈ r.file.vars) :
    g.givens (renamed r.file base v) = (r.file.givens v).map (renamed r.file base) := by
  obtain ⟨q, hq, ps, h1, h2⟩ := back_pot hf hp hD ht hv
  rw [← h1.child, givens_child hg hq, h1.parents, h2, List.map_reverse, List.reverse_reverse]

/-- the numbers of the table for a variable that is declared before its parents -/
theorem back_entry (ht : Model.TablesIn r.file tab) (hg : g.Valid) {v : Nat} (hv : v ∈ r.file.vars) (hfirst : ∀ u ∈ r.file.givens v, v < u)
    {q : Parsed K} (hq : q ∈ g.pots) (hqc : q.child = renamed r.file base v) {y : Nat → Nat} (hy : Legal g.card g.vars y)
    (b : Nat → K) (hb : ∀ j, b j = value (fmt ((fullTable r.file tab v).at' (j :: (r.file.givens v).map (fun u => y (renamed r.file base u)))))) :
    g.entry q y = if ∑ j ∈ Finset.range (r.file.card v), b j = 0 then b (y (renamed r.file base v))
      else b (y (renamed r.file base v)) / ∑ j ∈ Finset.range (r.file.card v), b j := by
  obtain ⟨q', hq', ps, hst, hps⟩ := back_pot hf hp hD ht hv
  have : q' = q := List.inj_on_of_nodup_map hg.distinct hq' hq (by rw [hst.child, hqc])
  subst this
  have hgiv := givens_spec hf v
  have hmemg : ∀ u ∈ r.file.vars, renamed r.file base u ∈ g.vars := fun u hu => by
    rw [back_vars hf hp hD]; exact List.mem_map_of_mem hu
  have hcomb : Combination g.card (renamed r.file base v :: ps.getD []) y := by
    intro u hu
    rcases List.mem_cons.1 hu with rfl | hu
    · exact hy _ (hmemg v hv)
    · rw [hps] at hu
      obtain ⟨k, hk, rfl⟩ := List.mem_map.1 hu
      exact hy _ (hmemg k (hgiv.2 k (List.mem_reverse.1 hk)).1)
  have hfam : ∃ s, g.family q' = renamed r.file base v :: s := by
    have hc1 : q'.child ∈ g.family q' := List.mem_filter.2 ⟨hg.child q' hq', by simp⟩
    cases hfm : g.family q' with
    | nil => rw [hfm] at hc1; cases hc1
    | cons w s =>
      have hw : w ∈ g.family q' := by rw [hfm]; simp
      have hsort : (g.family q').Pairwise (· < ·) := hg.sorted.filter _
      have hle : w ≤ q'.child := by
        rw [hfm] at hc1 hsort
        rcases List.mem_cons.1 hc1 with h | h
        · omega
        · exact Nat.le_of_lt ((List.pairwise_cons.1 hsort).1 _ h)
      have : w = q'.child := by
        have := (List.mem_filter.1 hw).2
        simp only [decide_eq_true_eq] at this
        rcases this with h | h
        · exact h
        · rw [hst.parents, List.mem_reverse, hps] at h
          obtain ⟨k, hk, rfl⟩ := List.mem_map.1 h
          have hk := List.mem_reverse.1 hk
          have := renamed_lt hf (base := base) hv (hgiv.2 k hk).1 (hfirst k hk)
          rw [hqc] at hle
          omega
      exact ⟨s, by rw [this, hqc]⟩
  obtain ⟨s, hs⟩ := hfam
  obtain ⟨f1, f2, _⟩ := fullTable_spec hf hp tab ht hv
  -- the number written for a combination of states
  have hwr : ∀ z, Legal g.card g.vars z → written g.card (renamed r.file base v) (ps.getD []) ((fullTable r.file tab v).data.map (fun a => value (fmt a))) z =
      value (fmt ((fullTable r.file tab v).at' ((v :: r.file.givens v).map (fun u => z (renamed r.file base u))))) := by
    intro z hz
    have hfamily : ∀ u ∈ v :: r.file.givens v, u ∈ r.file.vars := by
      intro u hu
      rcases List.mem_cons.1 hu with rfl | hu
      exacts [hv, (hgiv.2 u hu).1]
    have hrev : (ps.getD [] ++ [renamed r.file base v]).reverse = (v :: r.file.givens v).map (renamed r.file base) := by
      rw [hps, List.reverse_append, List.map_reverse, List.reverse_reverse]
      rfl
    have hcards : ((v :: r.file.givens v).map (renamed r.file base)).map g.card = (fullTable r.file tab v).card := by
      rw [f2, List.map_map]
      exact List.map_congr_left fun u hu => back_card hf hp hD (hfamily u hu)
    have hrange : InRange (fullTable r.file tab v).card ((v :: r.file.givens v).map (fun u => z (renamed r.file base u))) := by
      rw [f2]
      exact inRange_map fun u hu => by
        rw [← back_card hf hp hD (hfamily u hu)]
        exact hz _ (hmemg u (hfamily u hu))
    have hlt := position_lt hrange
    rw [← f1.1] at hlt
    unfold written Potential.at' cellOf
    rw [rowMajor_eq, hrev, hcards, List.map_map]
    show (List.map _ _).getD (position (fullTable r.file tab v).card ((v :: r.file.givens v).map (fun u => z (renamed r.file base u)))) 0 = _
    rw [List.getD_eq_getElem _ _ (by simpa using hlt), List.getD_eq_getElem _ _ hlt, List.getElem_map]
  have hws : ∀ j, j < r.file.card v → written g.card (renamed r.file base v) (ps.getD []) ((fullTable r.file tab v).data.map (fun a => value (fmt a)))
      (withState y (renamed r.file base v) j) = b j := by
    intro j hj
    have hleg : Legal g.card g.vars (withState y (renamed r.file base v) j) := by
      intro u hu
      unfold withState
      split
      · rename_i e; rw [e, back_card hf hp hD hv]; exact hj
      · exact hy u hu
    rw [hwr _ hleg, hb, List.map_cons]
    congr 4
    · simp [withState]
    · refine List.map_congr_left fun u hu => ?_
      unfold withState
      rw [if_neg fun e => (hgiv.2 u hu).2 (renamed_inj (hgiv.2 u hu).1 e)]
  rw [hst.table y hcomb _ s hs]
  simp only [tableValue]
  unfold scaled
  have hsum : ∑ i ∈ Finset.range (g.card (renamed r.file base v)), written g.card (renamed r.file base v) (ps.getD [])
      ((fullTable r.file tab v).data.map (fun a => value (fmt a))) (withState y (renamed r.file base v) i) = ∑ j ∈ Finset.range (r.file.card v), b j := by
    rw [back_card hf hp hD hv]
    exact Finset.sum_congr rfl fun j hj => hws j (Finset.mem_range.1 hj)
  have hself : written g.card (renamed r.file base v) (ps.getD []) ((fullTable r.file tab v).data.map (fun a => value (fmt a))) y = b (y (renamed r.file base v)) := by
    have hlt : y (renamed r.file base v) < r.file.card v := by
      rw [← back_card hf hp hD hv]; exact hy _ (hmemg v hv)
    rw [← hws _ hlt, withState_self]
  rw [hsum, hself]

end Back

/-- Numbers that are rounded by at most `1/2000000` and divided by their sum. -/
theorem rounded_column {n : Nat} (hn : n ≤ 1000000) {a b : Nat → K} (ha : ∀ j, j < n → 0 ≤ a j) (hsum : ∑ j ∈ Finset.range n, a j = 1)
    (hab : ∀ j, j < n → |b j - a j| ≤ 1 / 2000000) {j : Nat} (hj : j < n) :
    ∑ k ∈ Finset.range n, b k ≠ 0 ∧ |b j / ∑ k ∈ Finset.range n, b k - a j| ≤ n / 1000000 := by
  have hnK : (n : K) ≤ 1000000 := by exact_mod_cast hn
  have h1n : (1 : K) ≤ n := by exact_mod_cast (show 1 ≤ n by omega)
  generalize hS : ∑ k ∈ Finset.range n, b k = S
  have hmem := Finset.mem_range.2 hj
  have haj : a j ≤ 1 := by
    rw [← hsum]
    exact Finset.single_le_sum (f := a) (fun k hk => ha k (Finset.mem_range.1 hk)) hmem
  have haj0 := ha j hj
  -- the differences of the others
  have hsplit : ∑ k ∈ Finset.range n, (b k - a k) = (b j - a j) + ∑ k ∈ (Finset.range n).erase j, (b k - a k) := (Finset.add_sum_erase _ _ hmem).symm
  have hrest : |∑ k ∈ (Finset.range n).erase j, (b k - a k)| ≤ (n - 1) * (1 / 2000000) := by
    refine (Finset.abs_sum_le_sum_abs _ _).trans ?_
    refine (Finset.sum_le_card_nsmul _ _ (1 / 2000000) fun k hk => hab k (Finset.mem_range.1 (Finset.mem_of_mem_erase hk))).trans ?_
    rw [Finset.card_erase_of_mem hmem, Finset.card_range, nsmul_eq_mul, Nat.cast_sub (by omega), Nat.cast_one]
  generalize ∑ k ∈ (Finset.range n).erase j, (b k - a k) = R at hsplit hrest
  rw [Finset.sum_sub_distrib, hS, hsum] at hsplit
  have hd := abs_le.1 (hab j hj)
  have hr := abs_le.1 hrest
  have hSlow : 1 / 2 ≤ S := by linarith [hd.1, hr.1]
  have hSpos : 0 < S := by linarith
  refine ⟨ne_of_gt hSpos, ?_⟩
  have hdiff : b j / S - a j = (b j - a j * S) / S := by field_simp
  rw [hdiff, abs_div, abs_of_pos hSpos, div_le_iff₀ hSpos]
  have hnum : b j - a j * S = (b j - a j) * (1 - a j) - a j * R := by
    have : S = 1 + (b j - a j) + R := by linarith
    rw [this]; ring
  have h2 : |b j - a j * S| ≤ n * (1 / 2000000) := by
    rw [hnum]
    refine (abs_sub _ _).trans ?_
    rw [abs_mul, abs_mul, abs_of_nonneg haj0, abs_of_nonneg (by linarith : 0 ≤ 1 - a j)]
    have e1 := mul_le_mul_of_nonneg_right (hab j hj) (by linarith : 0 ≤ 1 - a j)
    have e2 := mul_le_mul_of_nonneg_left hrest haj0
    have e3 : a j * ((n - 1) * (1 / 2000000)) ≤ (n - 1) * (1 / 2000000) := by
      have : (0 : K) ≤ (n - 1) * (1 / 2000000) := by linarith
      nlinarith
    linarith
  have h3 : (n : K) / 1000000 * (1 / 2) ≤ n / 1000000 * S := mul_le_mul_of_nonneg_left hSlow (by positivity)
  linarith

end Nip
