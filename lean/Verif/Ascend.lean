import Mathlib.Analysis.SpecialFunctions.Log.Basic
import Verif.Continue

/-!
# Lemmas for C62: a round of learning and the likelihood

Two networks whose tables are made of positive counts give every assignment to the unrolled network a weight; the quotient of the two weights is a
product over slices and variables.  With `log t ≤ t - 1` (Jensen's inequality) the difference of the two log likelihoods is at least the expected
value of the logarithm of this quotient, which is a sum over the expected counts.
-/

namespace Nip

open Res Spec

set_option linter.unusedSectionVars false

variable {K : Type} [Field K] [LinearOrder K] [IsStrictOrderedRing K]

/-! ### sums over slices -/

theorem sumOver_mono_legal {card : Nat → Nat} {vs : List Nat} {F G : Asg → K} (h : ∀ z, Legal card vs z → F z ≤ G z) (x : Asg) :
    sumOver card vs F x ≤ sumOver card vs G x := by
  classical
  rw [sumOver_legal (f := F) (g := fun z => if Legal card vs z then F z else 0) (U := vs) (fun z hz => by simp only [if_pos hz]) vs x (fun v hv hn => absurd hv hn),
    sumOver_legal (f := G) (g := fun z => if Legal card vs z then G z else 0) (U := vs) (fun z hz => by simp only [if_pos hz]) vs x (fun v hv hn => absurd hv hn)]
  refine sumOver_mono (fun z => ?_) x
  split
  · rename_i hz; exact h z hz
  · exact le_refl _

theorem sumSlices_mono {card : Nat → Nat} {vs l : List Nat} {F G : (Nat → Nat → Nat) → K} {X : Nat → Nat → Nat}
    (h : ∀ Y, (∀ s ∈ l, Legal card vs (Y s)) → (∀ s, s ∉ l → Y s = X s) → F Y ≤ G Y) : sumSlices card vs l F X ≤ sumSlices card vs l G X := by
  induction l generalizing X with
  | nil => exact h X (by simp) (fun _ _ => rfl)
  | cons s ss ih =>
    simp only [sumSlices]
    refine sumOver_mono_legal (fun x hx => ih fun Y h1 h2 => h Y ?_ ?_) _
    · intro s' hs'
      by_cases e : s' ∈ ss
      · exact h1 s' e
      · rcases List.mem_cons.mp hs' with rfl | hs'
        · rw [h2 _ e, Function.update_self]; exact hx
        · exact absurd hs' e
    · intro s' hs'
      rw [List.mem_cons, not_or] at hs'
      rw [h2 s' hs'.2, Function.update_of_ne hs'.1]

theorem sumSlices_legal {card : Nat → Nat} {vs l : List Nat} {F G : (Nat → Nat → Nat) → K} {X : Nat → Nat → Nat}
    (h : ∀ Y, (∀ s ∈ l, Legal card vs (Y s)) → (∀ s, s ∉ l → Y s = X s) → F Y = G Y) : sumSlices card vs l F X = sumSlices card vs l G X :=
  le_antisymm (sumSlices_mono fun Y h1 h2 => (h Y h1 h2).le) (sumSlices_mono fun Y h1 h2 => (h Y h1 h2).ge)

theorem sumSlices_sum {ι : Type} {card : Nat → Nat} {vs : List Nat} (l : List Nat) (s : Finset ι) (F : ι → (Nat → Nat → Nat) → K) (X : Nat → Nat → Nat) :
    sumSlices card vs l (fun Y => ∑ i ∈ s, F i Y) X = ∑ i ∈ s, sumSlices card vs l (F i) X := by
  induction l generalizing X with
  | nil => rfl
  | cons a l ih =>
    simp only [sumSlices]
    rw [← sumOver_sum]
    exact sumOver_congr' fun x => ih _

theorem sumSlices_zero {card : Nat → Nat} {vs : List Nat} (l : List Nat) (X : Nat → Nat → Nat) : sumSlices card vs l (fun _ => (0 : K)) X = 0 := by
  simpa using sumSlices_sum (K := K) (card := card) (vs := vs) l (∅ : Finset Nat) (fun _ _ => 0) X

theorem sumSlices_add {card : Nat → Nat} {vs : List Nat} (l : List Nat) (F G : (Nat → Nat → Nat) → K) (X : Nat → Nat → Nat) :
    sumSlices card vs l (fun Y => F Y + G Y) X = sumSlices card vs l F X + sumSlices card vs l G X := by
  simpa using sumSlices_sum (card := card) (vs := vs) l (Finset.univ : Finset Bool) (fun b => if b then F else G) X

theorem sumSlices_const_mul {card : Nat → Nat} {vs : List Nat} (l : List Nat) (c : K) (F : (Nat → Nat → Nat) → K) (X : Nat → Nat → Nat) :
    sumSlices card vs l (fun Y => c * F Y) X = c * sumSlices card vs l F X :=
  sumSlices_mul_left (g := fun _ => c) (fun _ _ _ _ => rfl) X

theorem sumSlices_list {ι : Type} {card : Nat → Nat} {vs : List Nat} (l : List Nat) (L : List ι) (F : ι → (Nat → Nat → Nat) → K) (X : Nat → Nat → Nat) :
    sumSlices card vs l (fun Y => (L.map (fun i => F i Y)).sum) X = (L.map (fun i => sumSlices card vs l (F i) X)).sum := by
  induction L with
  | nil => simp only [List.map_nil, List.sum_nil]; exact sumSlices_zero l X
  | cons i L ih =>
    simp only [List.map_cons, List.sum_cons]
    rw [sumSlices_add, ih]

theorem sumSlices_sumOver {card card' : Nat → Nat} {vs : List Nat} (l ws : List Nat) (F : Asg → (Nat → Nat → Nat) → K) (y : Asg) (X : Nat → Nat → Nat) :
    sumSlices card vs l (fun Y => sumOver card' ws (fun z => F z Y) y) X = sumOver card' ws (fun z => sumSlices card vs l (F z) X) y := by
  induction ws generalizing y with
  | nil => rfl
  | cons w ws ih =>
    simp only [sumOver]
    rw [sumSlices_sum]
    exact Finset.sum_congr rfl fun i _ => ih _

/-! ### the weight of a slice in a network made of positive counts -/

theorem prod_filter {ι : Type} (L : List ι) (p : ι → Bool) (g : ι → K) : ((L.filter p).map g).prod = (L.map (fun i => if p i then g i else 1)).prod := by
  induction L with
  | nil => rfl
  | cons a L ih =>
    rw [List.filter_cons]
    split
    · rename_i h; simp [ih, h]
    · rename_i h; simp [ih, h]

/-- the parameter for the states of a variable and its parents -/
def theta (f : NetFile K) (c : Nat → List Nat → K) (v : Nat) (x : Asg) : K := estimate (f.card v) (c v) (f.cell v x)

theorem theta_pos {f : NetFile K} (hf : f.Valid) {c : Nat → List Nat → K} (hc : ∀ v cell, 0 < c v cell) {v : Nat} (hv : v ∈ f.vars) (x : Asg) :
    0 < theta f c v x :=
  div_pos (hc _ _) (Finset.sum_pos (fun _ _ => hc _ _) (Finset.nonempty_range_iff.mpr (ne_of_gt (hf.states v hv))))

theorem cell_legal {f : NetFile K} (hf : f.Valid) {v : Nat} (hv : v ∈ f.vars) {x : Asg} (hx : Legal f.card f.vars x) :
    states f.card (v :: f.givens v) x = f.cell v x := by
  rw [cell_states]
  unfold NetFile.cell wrap
  rw [Nat.mod_eq_of_lt (hx v hv)]
  congr 1
  apply List.map_congr_left
  intro u hu
  exact Nat.mod_eq_of_lt (hx u ((givens_spec hf v).2 u hu).1)

/-- what is seen in a slice -/
def visible (f : NetFile K) (seen : Nat → Int) (x : Asg) : K := (f.vars.map (fun v => (vision f.card seen v).getD (x v) 0)).prod

theorem visible_nonneg (f : NetFile K) (seen : Nat → Int) (x : Asg) : 0 ≤ visible f seen x := by
  refine list_prod_nonneg ?_
  intro a ha
  obtain ⟨v, hv, rfl⟩ := List.mem_map.mp ha
  exact getD_nonneg (vision_nonneg _ _ _) _

/-- the parameters that count in a slice -/
def parms (f : NetFile K) (c : Nat → List Nat → K) (t : Nat) (x : Asg) : K :=
  (f.vars.map (fun v => if t = 0 ∨ f.next v = none then theta f c v x else 1)).prod

theorem parms_pos {f : NetFile K} (hf : f.Valid) {c : Nat → List Nat → K} (hc : ∀ v cell, 0 < c v cell) (t : Nat) (x : Asg) : 0 < parms f c t x := by
  refine List.prod_pos ?_
  intro a ha
  obtain ⟨v, hv, rfl⟩ := List.mem_map.mp ha
  split
  · exact theta_pos hf hc hv x
  · exact one_pos

theorem relearn_slice {f : NetFile K} (hf : f.Valid) (hroot : ∀ v ∈ f.vars, f.next v ≠ none → f.givens v = []) {c : Nat → List Nat → K}
    (hc : ∀ v cell, 0 < c v cell) (seen : Nat → Nat → Int) (t : Nat) {x : Asg} (hx : Legal f.card f.vars x) :
    slice (f.relearn c) seen t x = parms f c t x * visible f (seen t) x := by
  classical
  have hval := relearn_valid hf (count := c) (fun v cell => (hc v cell).le)
  unfold slice NetFile.sliceWeight weightOf
  have h1 : (f.relearn c).net.tables x = ((f.vars.filter (fun v => decide (f.givens v ≠ []))).map (fun v => theta f c v x)).prod := by
    rw [(net_local hval).tables x (wrap f.card x) (fun v hv => (Nat.mod_eq_of_lt (hx v hv)).symm), relearn_tables hf]
    congr 1
    apply List.map_congr_left
    intro v hv
    rw [cell_legal hf (List.mem_filter.mp hv).1 hx]; rfl
  have h2 : (f.relearn c).net.roots = f.vars.filter (fun v => decide (f.givens v = [])) := by
    rw [relearn_roots hf]
    show f.vars.filter _ = _
    apply List.filter_congr
    intro v hv
    rw [Bool.eq_iff_iff, decide_eq_true_eq, decide_eq_true_eq, givens_eq, parentsOf_nil hf]
  rw [h1, h2, prod_filter, prod_filter, ← List.prod_map_mul]
  show _ * visible f (seen t) x = _
  congr 2
  apply List.map_congr_left
  intro v hv
  by_cases hg : f.givens v = []
  · simp only [hg, ne_eq, not_true, decide_false, Bool.false_eq_true, if_false, decide_true, if_true, one_mul]
    have hpr := relearn_prior hf c hv hg
    have hcell : f.cell v x = [x v] := by unfold NetFile.cell; rw [hg]; rfl
    have hget : ((f.relearn c).net.prior v).getD (x v) 0 = theta f c v x := by
      rw [hpr, List.getD_eq_getElem _ _ (by simpa using hx v hv)]
      simp [theta, hcell]
    have hus : Usable ((f.relearn c).net.card v) ((f.relearn c).net.prior v) := by
      exact ⟨x v, hx v hv, by rw [hget]; exact theta_pos hf hc hv x⟩
    rw [hget]
    by_cases hn : t = 0 ∨ f.next v = none
    · rw [if_pos ⟨hn, hus⟩, if_pos hn]
    · rw [if_neg (fun h => hn h.1), if_neg hn]
  · have hn : t = 0 ∨ f.next v = none := Or.inr (by_contra fun h => hg (hroot v hv h))
    simp [hg, hn]

/-! ### the weight of an assignment -/

open Classical in
/-- the part of the weight of an assignment to the unrolled network that does not depend on the parameters -/
noncomputable def fits (f : NetFile K) (seen : Nat → Nat → Int) (n : Nat) (X : Nat → Nat → Nat) : K :=
  if ∀ s, s + 1 < n → f.Linked (X s) (X (s + 1)) then ∏ s ∈ Finset.range n, visible f (seen s) (X s) else 0

theorem fits_nonneg (f : NetFile K) (seen : Nat → Nat → Int) (n : Nat) (X : Nat → Nat → Nat) : 0 ≤ fits f seen n X := by
  unfold fits
  split
  · exact Finset.prod_nonneg fun s _ => visible_nonneg f (seen s) (X s)
  · exact le_refl _

theorem relearn_weight {f : NetFile K} (hf : f.Valid) (hroot : ∀ v ∈ f.vars, f.next v ≠ none → f.givens v = []) {c : Nat → List Nat → K}
    (hc : ∀ v cell, 0 < c v cell) (seen : Nat → Nat → Int) (n : Nat) {X : Nat → Nat → Nat} (hX : ∀ s ∈ List.range n, Legal f.card f.vars (X s)) :
    (f.relearn c).unrolledWeight seen n X = fits f seen n X * ∏ s ∈ Finset.range n, parms f c s (X s) := by
  classical
  unfold NetFile.unrolledWeight fits
  have e : (∀ s, s + 1 < n → (f.relearn c).Linked (X s) (X (s + 1))) ↔ ∀ s, s + 1 < n → f.Linked (X s) (X (s + 1)) := Iff.rfl
  by_cases h : ∀ s, s + 1 < n → f.Linked (X s) (X (s + 1))
  · rw [if_pos (e.mpr h), if_pos h, ← Finset.prod_mul_distrib]
    refine Finset.prod_congr rfl fun s hs => ?_
    have := relearn_slice hf hroot hc seen s (hX s (List.mem_range.mpr (Finset.mem_range.mp hs)))
    unfold slice at this
    rw [this, mul_comm]
  · rw [if_neg (fun h' => h (e.mp h')), if_neg h, zero_mul]

/-- a function of the states of a variable and its parents, as a sum over these states -/
theorem spread {f : NetFile K} (hf : f.Valid) {v : Nat} (hv : v ∈ f.vars) {x : Asg} (hx : Legal f.card f.vars x) (D : List Nat → K) :
    D (f.cell v x) = sumOver f.card (v :: f.givens v) (fun y => if f.cell v x = f.cell v y then D (f.cell v y) else 0) (fun _ => 0) := by
  classical
  have h := sumOver_point (cell_nodup hf v) (fun u hu => hx u (cell_sub hf hv u hu)) (fun y => D (f.cell v y)) (fun _ => 0)
  have e1 : ∀ y : Asg, f.cell v x = f.cell v y ↔ ∀ u ∈ v :: f.givens v, y u = x u := by
    intro y
    unfold NetFile.cell
    rw [List.cons.injEq, List.map_inj_left]
    constructor
    · rintro ⟨h1, h2⟩ u hu
      rcases List.mem_cons.mp hu with rfl | hu
      · exact h1.symm
      · exact (h2 u hu).symm
    · intro h
      exact ⟨(h v (List.mem_cons_self ..)).symm, fun u hu => (h u (List.mem_cons_of_mem _ hu)).symm⟩
  simp only [e1]
  rw [h]
  congr 1
  rw [e1]
  intro u hu
  rw [if_pos hu]

/-- the expected value of a function of the states of a variable and its parents in a slice -/
theorem expect_cell {f g : NetFile K} (hf : f.Valid) (hvars : g.vars = f.vars) (hcard : g.card = f.card) (seen : Nat → Nat → Int) (n : Nat) {t : Nat} (ht : t < n)
    {v : Nat} (hv : v ∈ f.vars) (D : List Nat → K) :
    sumSlices f.card f.vars (List.range n) (fun X => g.unrolledWeight seen n X * D (f.cell v (X t))) (fun _ _ => 0) =
      sumOver f.card (v :: f.givens v) (fun y => D (f.cell v y) * g.unrolledTotal seen n (fun X => f.cell v (X t) = f.cell v y)) (fun _ => 0) := by
  classical
  rw [sumSlices_legal (G := fun X => sumOver f.card (v :: f.givens v) (fun y => D (f.cell v y) * if f.cell v (X t) = f.cell v y then g.unrolledWeight seen n X else 0)
    (fun _ => 0))]
  · rw [sumSlices_sumOver]
    refine sumOver_congr' fun y => ?_
    rw [sumSlices_const_mul]
    unfold NetFile.unrolledTotal
    rw [hvars, hcard]
    refine congrArg _ (sumSlices_congr (fun X => ?_) _)
    by_cases h : f.cell v (X t) = f.cell v y <;> simp [h]
  · intro X hX _
    rw [spread hf hv (hX t (List.mem_range.mpr ht)) D, ← sumOver_const_mul]
    refine sumOver_congr' fun y => ?_
    split
    · ring
    · ring

theorem total_eq (g : NetFile K) (seen : Nat → Nat → Int) (n : Nat) :
    g.unrolledTotal seen n (fun _ => True) = sumSlices g.card g.vars (List.range n) (fun X => g.unrolledWeight seen n X) (fun _ _ => 0) := by
  unfold NetFile.unrolledTotal
  simp

/-! ### Jensen's inequality -/

theorem log_list_prod : ∀ {L : List ℝ}, (∀ a ∈ L, 0 < a) → Real.log L.prod = (L.map Real.log).sum := by
  intro L
  induction L with
  | nil => intro _; simp
  | cons a L ih =>
    intro h
    have ha := h a (List.mem_cons_self ..)
    have hL : 0 < L.prod := List.prod_pos fun b hb => h b (List.mem_cons_of_mem _ hb)
    rw [List.prod_cons, Real.log_mul ha.ne' hL.ne', ih fun b hb => h b (List.mem_cons_of_mem _ hb)]
    simp

/-! ### sums over the numbers in a table -/

theorem flatMap_sum {ι κ : Type} (L : List ι) (g : ι → List κ) (H : κ → K) : ((L.flatMap g).map H).sum = (L.map (fun i => ((g i).map H).sum)).sum := by
  induction L with
  | nil => rfl
  | cons a L ih => simp [List.flatMap_cons, ih]

theorem range_sum (n : Nat) (g : Nat → K) : ((List.range n).map g).sum = ∑ i ∈ Finset.range n, g i := rfl

theorem list_sum_comm {ι : Type} (L : List ι) (n : Nat) (H : ι → Nat → K) :
    (L.map (fun a => ∑ i ∈ Finset.range n, H a i)).sum = ∑ i ∈ Finset.range n, (L.map (fun a => H a i)).sum := by
  induction L with
  | nil => simp
  | cons a L ih => simp [ih, Finset.sum_add_distrib]

theorem tuples_sum (card : Nat → Nat) : ∀ {vs : List Nat}, vs.Nodup → ∀ (H : List Nat → K) (x : Asg),
    ((tuples (vs.map card)).map H).sum = sumOver card vs (fun y => H (vs.map y)) x := by
  intro vs
  induction vs with
  | nil => intro _ H x; simp [tuples, sumOver]
  | cons v vs ih =>
    intro hn H x
    obtain ⟨h1, h2⟩ := List.nodup_cons.mp hn
    simp only [List.map_cons, tuples, sumOver]
    rw [flatMap_sum]
    have : ∀ t : List Nat, (((List.range (card v)).map (fun i => i :: t)).map H).sum = ∑ i ∈ Finset.range (card v), H (i :: t) := by
      intro t
      rw [List.map_map, range_sum]
      rfl
    simp only [this]
    rw [list_sum_comm]
    refine Finset.sum_congr rfl fun i _ => ?_
    rw [ih h2 (fun t => H (i :: t)) (Function.update x v i)]
    refine sumOver_congr fun z hz => ?_
    rw [hz v h1, Function.update_self]

/-- the sum of a function of the parameters over the table of a variable -/
theorem learned_data_sum {f : NetFile K} (hf : f.Valid) (c : Nat → List Nat → K) {v : Nat} (hv : v ∈ f.vars) (log : K → K) :
    ((f.learnedTable c v).table.data.map log).sum = sumOver f.card (v :: f.givens v) (fun y => log (estimate (f.card v) (c v) (f.cell v y))) (fun _ => 0) := by
  have hnd : f.vars.Nodup := hf.sorted.imp ne_of_lt
  have hfn : (famOrder f v).Nodup := hnd.filter _
  have hp : (famOrder f v).Perm (v :: f.givens v) := (List.perm_ext_iff_of_nodup hfn (cell_nodup hf v)).mpr fun u => mem_famOrder hf hv
  show (((tuples ((famOrder f v).map f.card)).map (fun idx => estimate (f.card v) (c v) (f.cell v (fun u => idx.getD ((famOrder f v).idxOf u) 0)))).map log).sum = _
  rw [List.map_map, tuples_sum f.card hfn _ (fun _ => 0), sumOver_perm hp]
  refine sumOver_congr' fun y => ?_
  simp only [Function.comp]
  congr 2
  have key : ∀ u ∈ v :: f.givens v, ((famOrder f v).map y).getD ((famOrder f v).idxOf u) 0 = y u := by
    intro u hu
    have hu' := (mem_famOrder hf hv).mpr hu
    have hi := List.idxOf_lt_length_of_mem hu'
    rw [List.getD_eq_getElem _ _ (by simpa using hi), List.getElem_map, List.getElem_idxOf]
  unfold NetFile.cell
  congr 1
  · exact key v (List.mem_cons_self ..)
  · apply List.map_congr_left
    intro u hu
    exact key u (List.mem_cons_of_mem _ hu)

theorem logParameters_eq {f : NetFile K} (hf : f.Valid) (c : Nat → List Nat → K) (log : K → K) :
    (f.relearn c).logParameters log =
      (f.vars.map (fun v => sumOver f.card (v :: f.givens v) (fun y => log (estimate (f.card v) (c v) (f.cell v y))) (fun _ => 0))).sum := by
  unfold NetFile.logParameters
  show ((f.vars.map (f.learnedTable c)).map _).sum = _
  rw [List.map_map]
  congr 1
  apply List.map_congr_left
  intro v hv
  exact learned_data_sum hf c hv log

theorem sumOver_add {card : Nat → Nat} (vs : List Nat) (F G : Asg → K) (x : Asg) :
    sumOver card vs (fun y => F y + G y) x = sumOver card vs F x + sumOver card vs G x := by
  simpa using sumOver_sum (card := card) vs (Finset.univ : Finset Bool) (fun b => if b then F else G) x

theorem sumOver_list {ι : Type} {card : Nat → Nat} (vs : List Nat) (L : List ι) (F : ι → Asg → K) (x : Asg) :
    sumOver card vs (fun y => (L.map (fun i => F i y)).sum) x = (L.map (fun i => sumOver card vs (F i) x)).sum := by
  induction L with
  | nil => simp only [List.map_nil, List.sum_nil]; exact sumOver_eq_zero fun _ _ => rfl
  | cons i L ih =>
    simp only [List.map_cons, List.sum_cons]
    rw [sumOver_add, ih]

theorem expectedCount_nonneg {f : NetFile K} (hf : f.Valid) (seen : Nat → Nat → Int) (n v : Nat) (cell : List Nat) : 0 ≤ f.expectedCount seen n v cell := by
  classical
  have hw : ∀ X, 0 ≤ f.unrolledWeight seen n X := by
    intro X
    unfold NetFile.unrolledWeight
    split
    · exact Finset.prod_nonneg fun s _ => slice_nonneg hf seen s (X s)
    · exact le_refl _
  have ht : ∀ P, 0 ≤ f.unrolledTotal seen n P := by
    intro P
    unfold NetFile.unrolledTotal
    refine (sumSlices_zero (card := f.card) (vs := f.vars) (List.range n) (fun _ _ => 0)).symm.le.trans (sumSlices_mono fun Y _ _ => ?_)
    split
    · exact hw Y
    · exact le_refl _
  exact Finset.sum_nonneg fun t _ => div_nonneg (ht _) (ht _)

theorem learnRound_pos {f : NetFile K} (hf : f.Valid) (data : Evidence) {c : Nat → List Nat → K} (hc : ∀ v cell, 0 ≤ c v cell) (v : Nat) (cell : List Nat) :
    0 < f.learnRound data c v cell := by
  unfold NetFile.learnRound
  have : 0 ≤ (data.map (fun d => (f.relearn c).expectedCount d.2 d.1 v cell)).sum := by
    refine List.sum_nonneg ?_
    intro a ha
    obtain ⟨d, _, rfl⟩ := List.mem_map.mp ha
    exact expectedCount_nonneg (relearn_valid hf hc) _ _ _ _
  linarith

theorem list_sum_swap {ι κ : Type} (L : List ι) (M : List κ) (H : ι → κ → K) :
    (L.map (fun a => (M.map (fun b => H a b)).sum)).sum = (M.map (fun b => (L.map (fun a => H a b)).sum)).sum := by
  induction L with
  | nil => simp
  | cons a L ih => simp only [List.map_cons, List.sum_cons]; rw [ih, ← List.sum_map_add]

variable {f : NetFile ℝ} {c c' : Nat → List Nat → ℝ}

/-- how much better a parameter has become -/
noncomputable def gain (f : NetFile ℝ) (c c' : Nat → List Nat → ℝ) (v : Nat) (cell : List Nat) : ℝ :=
  Real.log (estimate (f.card v) (c' v) cell) - Real.log (estimate (f.card v) (c v) cell)

theorem parms_log (hf : f.Valid) (hc : ∀ v cell, 0 < c v cell) (hc' : ∀ v cell, 0 < c' v cell) (t : Nat) (x : Asg) :
    Real.log (parms f c' t x) - Real.log (parms f c t x) = (f.vars.map (fun v => if t = 0 ∨ f.next v = none then gain f c c' v (f.cell v x) else 0)).sum := by
  have key : ∀ c : Nat → List Nat → ℝ, (∀ v cell, 0 < c v cell) →
      Real.log (parms f c t x) = (f.vars.map (fun v => if t = 0 ∨ f.next v = none then Real.log (theta f c v x) else 0)).sum := by
    intro c hc
    unfold parms
    rw [log_list_prod]
    · rw [List.map_map]
      congr 1
      apply List.map_congr_left
      intro v _
      simp only [Function.comp]
      split
      · rfl
      · simp
    · intro a ha
      obtain ⟨v, hv, rfl⟩ := List.mem_map.mp ha
      split
      · exact theta_pos hf hc hv x
      · exact one_pos
  rw [key c' hc', key c hc]
  generalize f.vars = L
  induction L with
  | nil => simp
  | cons v L ih =>
    simp only [List.map_cons, List.sum_cons]
    rw [← ih]
    unfold gain theta
    split <;> ring

theorem jensen_at (hf : f.Valid) (hroot : ∀ v ∈ f.vars, f.next v ≠ none → f.givens v = []) (hc : ∀ v cell, 0 < c v cell) (hc' : ∀ v cell, 0 < c' v cell)
    (seen : Nat → Nat → Int) (n : Nat) {X : Nat → Nat → Nat} (hX : ∀ s ∈ List.range n, Legal f.card f.vars (X s)) {r : ℝ} (hr : 0 < r) :
    (∑ t ∈ Finset.range n, (f.vars.map (fun v => (f.relearn c).unrolledWeight seen n X * if t = 0 ∨ f.next v = none then gain f c c' v (f.cell v (X t)) else 0)).sum) +
        Real.log r * (f.relearn c).unrolledWeight seen n X ≤
      r * (f.relearn c').unrolledWeight seen n X + (-1) * (f.relearn c).unrolledWeight seen n X := by
  rw [relearn_weight hf hroot hc seen n hX, relearn_weight hf hroot hc' seen n hX]
  obtain ⟨I, hI⟩ : ∃ I, I = fits f seen n X := ⟨_, rfl⟩
  obtain ⟨P, hP⟩ : ∃ P, P = ∏ s ∈ Finset.range n, parms f c s (X s) := ⟨_, rfl⟩
  obtain ⟨P', hP'⟩ : ∃ P, P = ∏ s ∈ Finset.range n, parms f c' s (X s) := ⟨_, rfl⟩
  have p1 : 0 < P := by rw [hP]; exact Finset.prod_pos fun s _ => parms_pos hf hc s _
  have p2 : 0 < P' := by rw [hP']; exact Finset.prod_pos fun s _ => parms_pos hf hc' s _
  have hI0 : 0 ≤ I := by rw [hI]; exact fits_nonneg f seen n X
  rw [← hI, ← hP, ← hP']
  have hsum : (∑ t ∈ Finset.range n, (f.vars.map (fun v => I * P * if t = 0 ∨ f.next v = none then gain f c c' v (f.cell v (X t)) else 0)).sum) =
      I * P * (Real.log P' - Real.log P) := by
    have : Real.log P' - Real.log P = ∑ t ∈ Finset.range n, (Real.log (parms f c' t (X t)) - Real.log (parms f c t (X t))) := by
      rw [hP, hP', Real.log_prod (fun s _ => (parms_pos hf hc s _).ne'), Real.log_prod (fun s _ => (parms_pos hf hc' s _).ne'), Finset.sum_sub_distrib]
    rw [this, Finset.mul_sum]
    refine Finset.sum_congr rfl fun t _ => ?_
    rw [parms_log hf hc hc', List.sum_map_mul_left]
  rw [hsum]
  have hlog := Real.log_le_sub_one_of_pos (mul_pos (div_pos p2 p1) hr)
  rw [Real.log_mul (div_pos p2 p1).ne' hr.ne', Real.log_div p2.ne' p1.ne'] at hlog
  have := mul_le_mul_of_nonneg_left hlog (mul_nonneg hI0 p1.le)
  have e : I * P * (P' / P * r - 1) = r * (I * P') + -1 * (I * P) := by field_simp; ring
  rw [e] at this
  linarith

/-- the expected logarithm of the quotient of the weights, in terms of expected counts -/
theorem jensen (hf : f.Valid) (hroot : ∀ v ∈ f.vars, f.next v ≠ none → f.givens v = []) (hc : ∀ v cell, 0 < c v cell) (hc' : ∀ v cell, 0 < c' v cell)
    (seen : Nat → Nat → Int) (n : Nat) (hZ : (f.relearn c).unrolledTotal seen n (fun _ => True) ≠ 0) :
    (f.vars.map (fun v => sumOver f.card (v :: f.givens v) (fun y => gain f c c' v (f.cell v y) * (f.relearn c).expectedCount seen n v (f.cell v y)) (fun _ => 0))).sum ≤
      Real.log ((f.relearn c').unrolledTotal seen n (fun _ => True)) - Real.log ((f.relearn c).unrolledTotal seen n (fun _ => True)) ∧
    (f.relearn c').unrolledTotal seen n (fun _ => True) ≠ 0 := by
  classical
  have hval := relearn_valid hf (count := c) (fun v cell => (hc v cell).le)
  have hval' := relearn_valid hf (count := c') (fun v cell => (hc' v cell).le)
  obtain ⟨Z, hZe⟩ : ∃ Z, Z = (f.relearn c).unrolledTotal seen n (fun _ => True) := ⟨_, rfl⟩
  obtain ⟨Z', hZe'⟩ : ∃ Z, Z = (f.relearn c').unrolledTotal seen n (fun _ => True) := ⟨_, rfl⟩
  have hZ0 : 0 < Z := by
    rw [hZe]; exact lt_of_le_of_ne (total_nonneg hval seen n) (Ne.symm hZ)
  have hZ0' : 0 ≤ Z' := by rw [hZe']; exact total_nonneg hval' seen n
  obtain ⟨Q, hQ⟩ : ∃ Q, Q = (f.vars.map (fun v => sumOver f.card (v :: f.givens v)
    (fun y => gain f c c' v (f.cell v y) * (f.relearn c).expectedCount seen n v (f.cell v y)) (fun _ => 0))).sum := ⟨_, rfl⟩
  rw [← hQ, ← hZe, ← hZe']
  have hQZ : sumSlices f.card f.vars (List.range n) (fun X => ∑ t ∈ Finset.range n,
      (f.vars.map (fun v => (f.relearn c).unrolledWeight seen n X * if t = 0 ∨ f.next v = none then gain f c c' v (f.cell v (X t)) else 0)).sum) (fun _ _ => 0) = Z * Q := by
    rw [sumSlices_sum, hQ]
    have : ∀ t ∈ Finset.range n, sumSlices f.card f.vars (List.range n) (fun X =>
        (f.vars.map (fun v => (f.relearn c).unrolledWeight seen n X * if t = 0 ∨ f.next v = none then gain f c c' v (f.cell v (X t)) else 0)).sum) (fun _ _ => 0) =
        (f.vars.map (fun v => if t = 0 ∨ f.next v = none then sumOver f.card (v :: f.givens v) (fun y => gain f c c' v (f.cell v y) *
          (f.relearn c).unrolledTotal seen n (fun X => f.cell v (X t) = f.cell v y)) (fun _ => 0) else 0)).sum := by
      intro t ht
      rw [sumSlices_list]
      congr 1
      apply List.map_congr_left
      intro v hv
      by_cases hn : t = 0 ∨ f.next v = none
      · simp only [if_pos hn]
        exact expect_cell hf (g := f.relearn c) rfl rfl seen n (Finset.mem_range.mp ht) hv (gain f c c' v)
      · simp only [if_neg hn, mul_zero]
        exact sumSlices_zero _ _
    rw [Finset.sum_congr rfl this]
    generalize f.vars = L
    induction L with
    | nil => simp
    | cons v L ih =>
      simp only [List.map_cons, List.sum_cons]
      rw [Finset.sum_add_distrib, ih, mul_add]
      congr 1
      rw [← sumOver_const_mul]
      have e : ∀ y : Asg, Z * (gain f c c' v (f.cell v y) * (f.relearn c).expectedCount seen n v (f.cell v y)) =
          ∑ t ∈ Finset.range n, if t = 0 ∨ f.next v = none then gain f c c' v (f.cell v y) * (f.relearn c).unrolledTotal seen n (fun X => f.cell v (X t) = f.cell v y) else 0 := by
        intro y
        unfold NetFile.expectedCount
        rw [← hZe, Finset.mul_sum, Finset.mul_sum, ← Finset.sum_filter]
        have ecell : (f.relearn c).cell v = f.cell v := by
          funext x; unfold NetFile.cell; rw [relearn_givens hf]
        rw [ecell]
        refine Finset.sum_congr rfl fun t _ => ?_
        field_simp
      rw [sumOver_congr' e, sumOver_sum]
      refine Finset.sum_congr rfl fun t _ => ?_
      by_cases hn : t = 0 ∨ f.next v = none
      · simp only [if_pos hn]
      · simp only [if_neg hn]
        exact (sumOver_eq_zero fun _ _ => rfl).symm
  have main : ∀ r : ℝ, 0 < r → Z * Q + Real.log r * Z ≤ r * Z' + (-1) * Z := by
    intro r hr
    have := sumSlices_mono (card := f.card) (vs := f.vars) (l := List.range n) (X := fun _ _ => 0)
      (F := fun X => (∑ t ∈ Finset.range n, (f.vars.map (fun v => (f.relearn c).unrolledWeight seen n X * if t = 0 ∨ f.next v = none then gain f c c' v (f.cell v (X t)) else 0)).sum) +
        Real.log r * (f.relearn c).unrolledWeight seen n X)
      (G := fun X => r * (f.relearn c').unrolledWeight seen n X + (-1) * (f.relearn c).unrolledWeight seen n X)
      (fun Y hY _ => jensen_at hf hroot hc hc' seen n hY hr)
    rw [sumSlices_add, sumSlices_add, sumSlices_const_mul, sumSlices_const_mul, sumSlices_const_mul, hQZ] at this
    have e1 := total_eq (f.relearn c) seen n
    have e2 := total_eq (f.relearn c') seen n
    rw [← hZe] at e1
    rw [← hZe'] at e2
    rw [e1, e2]
    rw [e1] at this
    exact this
  have hpos : 0 < Z' := by
    rcases hZ0'.lt_or_eq with h | h
    · exact h
    · exfalso
      have := main (Real.exp (-Q)) (Real.exp_pos _)
      rw [← h, Real.log_exp] at this
      nlinarith
  refine ⟨?_, hpos.ne'⟩
  have := main (Z / Z') (div_pos hZ0 hpos)
  rw [Real.log_div hZ0.ne' hpos.ne', div_mul_cancel₀ _ hpos.ne'] at this
  nlinarith

/-! ### Gibbs' inequality -/

theorem gibbs_column {n : Nat} {a b : Nat → ℝ} (ha : ∀ j, 0 < a j) (hb : ∀ j, 0 < b j) (hn : 0 < n) (hb1 : ∑ j ∈ Finset.range n, b j = 1) :
    0 ≤ ∑ j ∈ Finset.range n, a j * (Real.log (a j / ∑ i ∈ Finset.range n, a i) - Real.log (b j)) := by
  obtain ⟨S, hS⟩ : ∃ S, S = ∑ i ∈ Finset.range n, a i := ⟨_, rfl⟩
  have hS0 : 0 < S := by rw [hS]; exact Finset.sum_pos (fun _ _ => ha _) (Finset.nonempty_range_iff.mpr hn.ne')
  rw [← hS]
  have : ∀ j ∈ Finset.range n, a j - S * b j ≤ a j * (Real.log (a j / S) - Real.log (b j)) := by
    intro j _
    have h := Real.log_le_sub_one_of_pos (mul_pos (div_pos hS0 (ha j)) (hb j))
    rw [Real.log_mul (div_pos hS0 (ha j)).ne' (hb j).ne', Real.log_div hS0.ne' (ha j).ne'] at h
    rw [Real.log_div (ha j).ne' hS0.ne']
    have h2 := mul_le_mul_of_nonneg_left h (ha j).le
    have e : a j * (S / a j * b j - 1) = S * b j - a j := by have := (ha j).ne'; field_simp
    rw [e] at h2
    linarith
  calc (0 : ℝ) = ∑ j ∈ Finset.range n, (a j - S * b j) := by
        rw [Finset.sum_sub_distrib, ← Finset.mul_sum, hb1, ← hS]; ring
    _ ≤ _ := Finset.sum_le_sum this

theorem gibbs (hf : f.Valid) (hc : ∀ v cell, 0 < c v cell) (hc' : ∀ v cell, 0 < c' v cell) {v : Nat} (hv : v ∈ f.vars) :
    0 ≤ sumOver f.card (v :: f.givens v) (fun y => gain f c c' v (f.cell v y) * c' v (f.cell v y)) (fun _ => 0) := by
  have hp : (v :: f.givens v).Perm (f.givens v ++ [v]) := (List.perm_append_singleton _ _).symm
  rw [sumOver_perm hp, sumOver_append]
  refine sumOver_nonneg (fun z => ?_) _
  simp only [sumOver]
  have hcell : ∀ j, f.cell v (Function.update z v j) = j :: (f.givens v).map z := by
    intro j
    unfold NetFile.cell
    rw [Function.update_self]
    congr 1
    apply List.map_congr_left
    intro u hu
    rw [Function.update_of_ne (ne_of_mem_of_not_mem hu (not_own_parent hf v))]
  simp only [hcell]
  have := gibbs_column (n := f.card v) (a := fun j => c' v (j :: (f.givens v).map z)) (b := fun j => estimate (f.card v) (c v) (j :: (f.givens v).map z))
    (fun _ => hc' _ _) (fun j => div_pos (hc _ _) (Finset.sum_pos (fun _ _ => hc _ _) (Finset.nonempty_range_iff.mpr (ne_of_gt (hf.states v hv))))) (hf.states v hv) (by
      unfold estimate
      simp only [List.tail_cons]
      rw [← Finset.sum_div, div_self]
      exact (Finset.sum_pos (fun _ _ => hc _ _) (Finset.nonempty_range_iff.mpr (ne_of_gt (hf.states v hv)))).ne')
  refine this.trans (le_of_eq (Finset.sum_congr rfl fun j _ => ?_))
  unfold gain
  rw [mul_comm]
  rfl

/-! ### one round of learning -/

/-- a round of learning does not lower the log likelihood plus the logarithms of the parameters -/
theorem round_ascends (hf : f.Valid) (hroot : ∀ v ∈ f.vars, f.next v ≠ none → f.givens v = []) (hc : ∀ v cell, 0 < c v cell) {data : Evidence}
    (hd : (f.relearn c).Explains data) : (f.relearn (f.learnRound data c)).Explains data ∧
    (data.map (fun d => Real.log ((f.relearn c).unrolledTotal d.2 d.1 (fun _ => True)))).sum + (f.relearn c).logParameters Real.log ≤
      (data.map (fun d => Real.log ((f.relearn (f.learnRound data c)).unrolledTotal d.2 d.1 (fun _ => True)))).sum +
        (f.relearn (f.learnRound data c)).logParameters Real.log := by
  obtain ⟨c', hce⟩ : ∃ c', c' = f.learnRound data c := ⟨_, rfl⟩
  have hc' : ∀ v cell, 0 < c' v cell := by rw [hce]; exact learnRound_pos hf data fun v cell => (hc v cell).le
  rw [← hce]
  refine ⟨fun d h => (jensen hf hroot hc hc' d.2 d.1 (hd d h)).2, ?_⟩
  have h1 : (data.map (fun d => (f.vars.map (fun v => sumOver f.card (v :: f.givens v)
      (fun y => gain f c c' v (f.cell v y) * (f.relearn c).expectedCount d.2 d.1 v (f.cell v y)) (fun _ => 0))).sum)).sum ≤
      (data.map (fun d => Real.log ((f.relearn c').unrolledTotal d.2 d.1 (fun _ => True)) - Real.log ((f.relearn c).unrolledTotal d.2 d.1 (fun _ => True)))).sum :=
    List.sum_le_sum fun d h => (jensen hf hroot hc hc' d.2 d.1 (hd d h)).1
  have h2 : 0 ≤ (f.vars.map (fun v => sumOver f.card (v :: f.givens v) (fun y => gain f c c' v (f.cell v y) * c' v (f.cell v y)) (fun _ => 0))).sum := by
    refine List.sum_nonneg ?_
    intro a ha
    obtain ⟨v, hv, rfl⟩ := List.mem_map.mp ha
    exact gibbs hf hc hc' hv
  have h3 : (f.vars.map (fun v => sumOver f.card (v :: f.givens v) (fun y => gain f c c' v (f.cell v y) * c' v (f.cell v y)) (fun _ => 0))).sum =
      (f.vars.map (fun v => sumOver f.card (v :: f.givens v) (fun y => gain f c c' v (f.cell v y)) (fun _ => 0))).sum +
      (data.map (fun d => (f.vars.map (fun v => sumOver f.card (v :: f.givens v)
        (fun y => gain f c c' v (f.cell v y) * (f.relearn c).expectedCount d.2 d.1 v (f.cell v y)) (fun _ => 0))).sum)).sum := by
    rw [list_sum_swap, ← List.sum_map_add]
    congr 1
    apply List.map_congr_left
    intro v _
    rw [← sumOver_list, ← sumOver_add]
    refine sumOver_congr' fun y => ?_
    have : c' v (f.cell v y) = 1 + (data.map (fun d => (f.relearn c).expectedCount d.2 d.1 v (f.cell v y))).sum := by rw [hce]; rfl
    rw [this, List.sum_map_mul_left]
    ring
  have h4 : (f.vars.map (fun v => sumOver f.card (v :: f.givens v) (fun y => gain f c c' v (f.cell v y)) (fun _ => 0))).sum =
      (f.relearn c').logParameters Real.log - (f.relearn c).logParameters Real.log := by
    rw [logParameters_eq hf, logParameters_eq hf, eq_sub_iff_add_eq, ← List.sum_map_add]
    congr 1
    apply List.map_congr_left
    intro v _
    rw [← sumOver_add]
    refine sumOver_congr' fun y => ?_
    unfold gain
    ring
  have h5 : (data.map (fun d => Real.log ((f.relearn c').unrolledTotal d.2 d.1 (fun _ => True)) - Real.log ((f.relearn c).unrolledTotal d.2 d.1 (fun _ => True)))).sum =
      (data.map (fun d => Real.log ((f.relearn c').unrolledTotal d.2 d.1 (fun _ => True)))).sum -
      (data.map (fun d => Real.log ((f.relearn c).unrolledTotal d.2 d.1 (fun _ => True)))).sum := by
    rw [eq_sub_iff_add_eq, ← List.sum_map_add]
    congr 1
    apply List.map_congr_left
    intro d _
    ring
  rw [h5] at h1
  rw [h3, h4] at h2
  linarith

/-! ### slices in which nothing is seen -/

/-- the product of the tables of some variables adds up to one -/
theorem sum_one {f : NetFile K} (hf : f.Valid) (hn : f.Normalised) {rank : Nat → Nat} (hr : ∀ q ∈ f.pots, ∀ u ∈ q.parents, rank u < rank q.child) :
    ∀ (n : Nat) (T : List (Parsed K)) (S : List Nat), T.length = n → (∀ q ∈ T, q ∈ f.pots) → (T.map (fun q => q.child)).Nodup →
      S.Perm (T.map (fun q => q.child)) → ∀ x, sumOver f.card S (tablesProd f T) x = 1 := by
  intro n
  induction n with
  | zero =>
    intro T S hl _ _ hS x
    have : T = [] := List.length_eq_zero_iff.mp hl
    subst this
    have : S = [] := by simpa using hS
    subst this
    simp [sumOver, tablesProd]
  | succ n ih =>
    intro T S hl hTp hd hS x
    obtain ⟨q, T', h1, h2, h3, h4, h5⟩ := take_last hf hn hr hTp hd (by intro h; subst h; cases hl)
    have hSn : S.Nodup := hS.nodup_iff.mpr hd
    have hq : q.child ∈ S := hS.mem_iff.mpr (List.mem_map.mpr ⟨q, h1, rfl⟩)
    rw [h5 S hSn hq]
    have hsub : ∀ r ∈ T', r ∈ T := fun r hr' => h2.mem_iff.mpr (List.mem_cons_of_mem _ hr')
    have h6 := h2.map (fun q => q.child)
    rw [List.map_cons] at h6
    refine ih T' _ ?_ (fun r hr' => hTp r (hsub r hr')) ?_ ?_ x
    · have := h2.length_eq; rw [hl] at this; simpa using this.symm
    · exact (List.nodup_cons.mp (h6.nodup_iff.mp hd)).2
    · have h7 := (hS.trans h6).erase q.child
      rwa [List.erase_cons_head] at h7

theorem relearn_entry {f : NetFile K} (hf : f.Valid) (c : Nat → List Nat → K) {v : Nat} (hv : v ∈ f.vars) (x : Asg) :
    (f.relearn c).entry (f.learnedTable c v) (wrap f.card x) = theta f c v (wrap f.card x) :=
  learned_sem hf c hv x

theorem relearn_normalised {f : NetFile K} (hf : f.Valid) {c : Nat → List Nat → K} (hc : ∀ v cell, 0 < c v cell) : (f.relearn c).Normalised := by
  intro q hq x hx
  obtain ⟨v, hv, rfl⟩ := List.mem_map.mp (show q ∈ f.vars.map (f.learnedTable c) from hq)
  show ∑ j ∈ Finset.range (f.card v), (f.relearn c).entry (f.learnedTable c v) (Function.update x v j) = 1
  have : ∀ j ∈ Finset.range (f.card v), (f.relearn c).entry (f.learnedTable c v) (Function.update x v j) =
      c v (j :: (f.givens v).map x) / ∑ i ∈ Finset.range (f.card v), c v (i :: (f.givens v).map x) := by
    intro j hj
    have hleg : Legal f.card f.vars (Function.update x v j) := by
      intro u hu
      by_cases e : u = v
      · subst e; simpa using hj
      · rw [Function.update_of_ne e]; exact hx u hu
    have h1 : (f.relearn c).entry (f.learnedTable c v) (Function.update x v j) = theta f c v (Function.update x v j) := by
      have h2 := learned_sem hf c hv (Function.update x v j)
      rw [cell_legal hf hv hleg] at h2
      rw [← theta] at h2
      rw [← h2]
      unfold NetFile.entry sem states
      rw [relearn_family]
      congr 1
      apply List.map_congr_left
      intro u hu
      exact (Nat.mod_eq_of_lt (hleg u (List.mem_filter.mp hu).1)).symm
    rw [h1]
    have hcell : f.cell v (Function.update x v j) = j :: (f.givens v).map x := by
      unfold NetFile.cell
      rw [Function.update_self]
      congr 1
      apply List.map_congr_left
      intro u hu
      rw [Function.update_of_ne (ne_of_mem_of_not_mem hu (not_own_parent hf v))]
    unfold theta estimate
    rw [hcell, List.tail_cons]
  rw [Finset.sum_congr rfl this, ← Finset.sum_div, div_self]
  exact (Finset.sum_pos (fun _ _ => hc _ _) (Finset.nonempty_range_iff.mpr (ne_of_gt (hf.states v hv)))).ne'

/-- the parameters of a slice add up to one, once the variables determined by the slice before are given -/
theorem parms_sum {f : NetFile K} (hf : f.Valid) (hac : f.Acyclic) {c : Nat → List Nat → K} (hc : ∀ v cell, 0 < c v cell) (t : Nat) (x : Asg) :
    sumOver f.card (f.vars.filter (fun v => decide (t = 0 ∨ f.next v = none))) (fun y => parms f c t (wrap f.card y)) x = 1 := by
  obtain ⟨rank, hr⟩ := hac
  have hval := relearn_valid hf (count := c) (fun v cell => (hc v cell).le)
  have hr' : ∀ q ∈ (f.relearn c).pots, ∀ u ∈ q.parents, rank u < rank q.child := by
    intro q hq u hu
    obtain ⟨v, hv, rfl⟩ := List.mem_map.mp (show q ∈ f.vars.map (f.learnedTable c) from hq)
    have hu' : u ∈ f.givens v := hu
    rw [givens_eq, mem_parentsOf hf] at hu'
    obtain ⟨q, h1, h2, h3⟩ := hu'
    have := hr q h1 u h3
    rw [h2] at this
    exact this
  have hnd : f.vars.Nodup := hf.sorted.imp ne_of_lt
  have hch : ∀ L : List Nat, ((L.map (f.learnedTable c)).map (fun q => q.child)) = L := by
    intro L
    rw [List.map_map]
    have : (fun q : Parsed K => q.child) ∘ f.learnedTable c = id := rfl
    rw [this, List.map_id]
  have h := sum_one hval (relearn_normalised hf hc) hr' _ ((f.vars.filter (fun v => decide (t = 0 ∨ f.next v = none))).map (f.learnedTable c))
    (f.vars.filter (fun v => decide (t = 0 ∨ f.next v = none))) rfl (by
      intro q hq
      obtain ⟨v, hv, rfl⟩ := List.mem_map.mp hq
      exact List.mem_map.mpr ⟨v, (List.mem_filter.mp hv).1, rfl⟩) (by rw [hch]; exact hnd.filter _) (by rw [hch]) x
  refine Eq.trans (sumOver_congr' fun y => ?_) h
  unfold parms tablesProd
  rw [List.map_map, prod_filter]
  congr 1
  apply List.map_congr_left
  intro v hv
  simp only [Function.comp, decide_eq_true_eq]
  split
  · exact (relearn_entry hf c hv y).symm
  · rfl

theorem visible_unseen (f : NetFile K) {x : Asg} (hx : Legal f.card f.vars x) : visible f (fun _ => -1) x = 1 := by
  refine List.prod_eq_one ?_
  intro a ha
  obtain ⟨v, hv, rfl⟩ := List.mem_map.mp ha
  rw [vision_unseen (by decide)]
  exact getD_ones (hx v hv)

theorem theta_congr {f : NetFile K} (hf : f.Valid) (c : Nat → List Nat → K) {v : Nat} (hv : v ∈ f.vars) {x y : Asg} (h : ∀ u ∈ f.vars, x u = y u) :
    theta f c v x = theta f c v y := by
  unfold theta NetFile.cell
  rw [h v hv, List.map_congr_left fun u hu => h u ((givens_spec hf v).2 u hu).1]

theorem parms_wrap {f : NetFile K} (hf : f.Valid) (c : Nat → List Nat → K) (t : Nat) {x : Asg} (hx : Legal f.card f.vars x) :
    parms f c t (wrap f.card x) = parms f c t x := by
  unfold parms
  congr 1
  apply List.map_congr_left
  intro v hv
  rw [theta_congr hf c hv (x := wrap f.card x) (y := x) fun u hu => Nat.mod_eq_of_lt (hx u hu)]

/-- a slice in which nothing is seen adds nothing to the total -/
theorem total_hide {f : NetFile K} (hf : f.Valid) (htm : f.Temporal) (hac : f.Acyclic) (hroot : ∀ v ∈ f.vars, f.next v ≠ none → f.givens v = [])
    {c : Nat → List Nat → K} (hc : ∀ v cell, 0 < c v cell) (seen : Nat → Nat → Int) (t : Nat) :
    total (f.relearn c) (hide seen t) (t + 1) = total (f.relearn c) seen t := by
  classical
  have hnd : f.vars.Nodup := hf.sorted.imp ne_of_lt
  have hslice : ∀ x, Legal f.card f.vars x → slice (f.relearn c) (hide seen t) t x = parms f c t (wrap f.card x) := by
    intro x hx
    rw [relearn_slice hf hroot hc _ _ hx, hide_self, visible_unseen f hx, mul_one, parms_wrap hf c t hx]
  rw [total_succ]
  show sumOver f.card f.vars _ _ = _
  cases t with
  | zero =>
    rw [total_zero, ← parms_sum hf hac hc 0 (fun _ => 0)]
    have : f.vars.filter (fun v => decide (0 = 0 ∨ f.next v = none)) = f.vars := List.filter_eq_self.mpr (by simp)
    rw [this]
    refine sumOver_legal (U := f.vars) (fun z hz => ?_) _ _ (fun v hv hn => absurd hv hn)
    rw [hslice z hz]
    simp [fwd]
  | succ s =>
    rw [total_succ]
    show _ = sumOver f.card f.vars _ _
    have hfw : ∀ y, fwd (f.relearn c) (hide seen (s + 1)) (s + 1) y =
        sumOver f.card f.vars (fun x => if f.Linked x y then slice (f.relearn c) seen s x * fwd (f.relearn c) seen s x else 0) (fun _ => 0) := by
      intro y
      rw [fwd_seen (fun s' hs => hide_lt seen hs), fwd]
      rfl
    rw [sumOver_legal (U := f.vars) (g := fun y => sumOver f.card f.vars (fun x => slice (f.relearn c) seen s x * fwd (f.relearn c) seen s x *
      (if f.Linked x y then parms f c (s + 1) (wrap f.card y) else 0)) (fun _ => 0)) (fun y hy => by
        rw [hslice y hy, hfw, ← sumOver_const_mul]
        refine sumOver_congr' fun x => ?_
        split <;> ring) _ _ (fun v hv hn => absurd hv hn), sumOver_comm]
    refine sumOver_legal (U := f.vars) (fun x hx => ?_) _ _ (fun v hv hn => absurd hv hn)
    rw [sumOver_const_mul]
    suffices h : sumOver f.card f.vars (fun y => if f.Linked x y then parms f c (s + 1) (wrap f.card y) else 0) (fun _ => 0) = 1 by rw [h, mul_one]
    obtain ⟨B, hB⟩ : ∃ B, B = f.vars.filter (fun v => decide (f.next v ≠ none)) := ⟨_, rfl⟩
    obtain ⟨y0, hy0⟩ : ∃ y0 : Asg, y0 = fun v => if v ∈ B then (match f.next v with | some u => x u | none => 0) else 0 := ⟨_, rfl⟩
    have hBm : ∀ v, v ∈ B ↔ v ∈ f.vars ∧ f.next v ≠ none := by intro v; rw [hB, List.mem_filter, decide_eq_true_eq]
    have hfix := sumOver_fix (card := f.card) hnd (B := B) (by rw [hB]; exact hnd.filter _) (fun u hu => ((hBm u).mp hu).1) (y := y0) (by
      intro u hu
      obtain ⟨h1, h2⟩ := (hBm u).mp hu
      rw [hy0]
      simp only [if_pos hu]
      cases e : f.next u with
      | none => exact absurd e h2
      | some w =>
        obtain ⟨h3, h4⟩ := htm.states u h1 w e
        simp only
        rw [← h4]
        exact hx w h3) (by intro u hu; rw [hy0]; simp only [if_neg hu]) (fun y => parms f c (s + 1) (wrap f.card y))
    have hV : f.vars.filter (· ∉ B) = f.vars.filter (fun v => decide (s + 1 = 0 ∨ f.next v = none)) := by
      apply List.filter_congr
      intro v hv
      rw [Bool.eq_iff_iff, decide_eq_true_eq, decide_eq_true_eq, hBm]
      simp [hv]
    rw [hV, parms_sum hf hac hc] at hfix
    rw [hfix]
    refine sumOver_congr' fun y => ?_
    have hl : f.Linked x y ↔ ∀ u ∈ B, y u = y0 u := by
      constructor
      · intro h u hu
        obtain ⟨h1, h2⟩ := (hBm u).mp hu
        rw [hy0]
        simp only [if_pos hu]
        cases e : f.next u with
        | none => exact absurd e h2
        | some w => exact h u h1 w e
      · intro h u hu w hw
        have hw' : f.next u = some w := hw
        have hb : u ∈ B := (hBm u).mpr ⟨hu, by rw [hw']; simp⟩
        have := h u hb
        rw [hy0] at this
        simp only [if_pos hb, hw'] at this
        exact this
    by_cases h : f.Linked x y
    · rw [if_pos h, if_pos (hl.mp h)]
    · rw [if_neg h, if_neg (fun h' => h (hl.mpr h'))]

/-- the log likelihood is the logarithm of the total weight -/
theorem score_eq (hf : f.Valid) (htm : f.Temporal) (hac : f.Acyclic) (hroot : ∀ v ∈ f.vars, f.next v ≠ none → f.givens v = [])
    (hc : ∀ v cell, 0 < c v cell) {data : Evidence} (hd : (f.relearn c).Explains data) :
    (f.relearn c).score Real.log data = (data.map (fun d => Real.log ((f.relearn c).unrolledTotal d.2 d.1 (fun _ => True)))).sum := by
  have hval := relearn_valid hf (count := c) (fun v cell => (hc v cell).le)
  unfold NetFile.score
  congr 1
  apply List.map_congr_left
  intro d hd'
  have hle : ∀ t, total (f.relearn c) d.2 (t + 1) ≤ total (f.relearn c) d.2 t := by
    intro t
    rw [← total_hide hf htm hac hroot hc d.2 t]
    exact total_hide_le hval d.2 t
  have hpos : ∀ k t, t + k = d.1 → 0 < total (f.relearn c) d.2 t := by
    intro k
    induction k with
    | zero =>
      intro t ht
      have : t = d.1 := ht
      subst this
      exact lt_of_le_of_ne (total_nonneg hval _ _) (Ne.symm (hd d hd'))
    | succ k ih => intro t ht; exact (ih (t + 1) (by omega)).trans_le (hle t)
  have key : ∀ n, n ≤ d.1 → ∑ t ∈ Finset.range n, Real.log ((f.relearn c).evidenceProb d.2 t) = Real.log (total (f.relearn c) d.2 n) := by
    intro n
    induction n with
    | zero => intro _; rw [total_zero]; simp
    | succ n ih =>
      intro hn
      rw [Finset.sum_range_succ, ih (by omega)]
      have e : (f.relearn c).evidenceProb d.2 n = total (f.relearn c) d.2 (n + 1) / total (f.relearn c) d.2 n := by
        rw [← total_hide hf htm hac hroot hc d.2 n]; rfl
      rw [e, Real.log_div (hpos (d.1 - (n + 1)) (n + 1) (by omega)).ne' (hpos (d.1 - n) n (by omega)).ne']
      ring
  exact key d.1 (le_refl _)

end Nip
