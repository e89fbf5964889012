import Verif.PotentialLemmas
import Mathlib.Algebra.Order.Field.Rat
import Mathlib.Algebra.BigOperators.Field
import Mathlib.Tactic.NormNum
import Mathlib.Tactic.Linarith

/-!
# Properties C01–C12: potentials

`p.at' idx` is the value of a potential at a tuple of states, `InRange card idx` says the tuple is valid,
`tuples card` lists all valid tuples and `p.Wf` is the shape invariant (`Verif/Spec`).  All operations return a new
value for what the C function modifies; what a C function does not modify is not returned.
-/

set_option linter.unusedSectionVars false

namespace Nip.Props

open Res Spec Potential

variable {K : Type} [Field K] [LinearOrder K]

/-- A potential used in the examples: two variables with 2 and 3 states. -/
def pEx : Potential ℚ := ⟨[2, 3], [1, 2, 3, 4, 0, 0]⟩

/-! ## C01 -/

/-- C01: for positive cardinalities the two translations are inverse to each other, in-range tuples land inside the
table of `card.prod` cells, different tuples land in different cells; the table made by the constructor has that size. -/
theorem C01_index_bijection (card : List Nat) (hpos : Positive card) :
    (∀ idx, InRange card idx → ∃ k, pointer card idx = ok k ∧ k < card.prod ∧
      ∀ buf : List Nat, buf.length = card.length → inverseMapping card card.prod k buf = ok idx) ∧
    (∀ k, k < card.prod → ∀ buf : List Nat, buf.length = card.length →
      ∃ idx, inverseMapping card card.prod k buf = ok idx ∧ InRange card idx ∧ pointer card idx = ok k) ∧
    (∀ i j, InRange card i → InRange card j → pointer card i = pointer card j → i = j) ∧
    (∃ p : Potential K, new card card.length none = ok (some p) ∧ p.card = card ∧ p.data.length = card.prod) := by
  refine ⟨?_, ?_, ?_, ?_⟩
  · intro idx hi
    refine ⟨_, pointer_eq (inRange_length hi).ge, position_lt hi, fun buf hb => ?_⟩
    rw [inverseMapping_eq hpos (position_lt hi) hb, digits_position hi]
  · intro k hk buf hb
    exact ⟨_, inverseMapping_eq hpos hk hb, digits_inRange hpos k, by
      rw [pointer_eq (by simp), position_digits hk]⟩
  · intro i j hi hj h
    rw [pointer_eq (inRange_length hi).ge, pointer_eq (inRange_length hj).ge] at h
    exact position_inj hi hj (by simpa using h)
  · exact ⟨_, new_none, rfl, by simp⟩

example : Positive [2, 3, 4] ∧ InRange [2, 3, 4] [1, 0, 3] ∧
    pointer [2, 3, 4] [1, 0, 3] = ok 19 ∧ inverseMapping [2, 3, 4] 24 19 [0, 0, 0] = ok [1, 0, 3] := by decide

/-! ## C02 -/

/-- Perform a sequence of writes. -/
def runWrites (p : Potential K) (ws : List (List Nat × K)) : Res (Potential K) :=
  ws.foldlM (fun p w => p.setValue w.1 w.2) p

/-- The last value written to `idx` in a sequence of writes, if any. -/
def lastWrite (ws : List (List Nat × K)) (idx : List Nat) : Option K :=
  (ws.reverse.find? (fun w => w.1 = idx)).map (·.2)

theorem C02_single_write (p : Potential K) (h : p.Wf) (idx : List Nat) (hi : InRange p.card idx) (v : K) :
    ∃ q, p.setValue idx v = ok q ∧ q.card = p.card ∧ q.Wf ∧ q.getValue idx = ok v ∧
      ∀ jdx, InRange p.card jdx → jdx ≠ idx → q.getValue jdx = p.getValue jdx := by
  refine ⟨_, setValue_eq h hi v, rfl, set_wf h _ _, ?_, ?_⟩
  · rw [getValue_eq (set_wf h _ _) hi, set_at' h hi hi, if_pos rfl]
  · intro jdx hj hne
    rw [getValue_eq (set_wf h _ _) hj, set_at' h hi hj, if_neg hne, getValue_eq h hj]

/-- C02: after any sequence of in-range writes every cell holds the last value written to it, or its old value. -/
theorem C02_writes (p : Potential K) (h : p.Wf) (ws : List (List Nat × K))
    (hw : ∀ w ∈ ws, InRange p.card w.1) :
    ∃ q, runWrites p ws = ok q ∧ q.card = p.card ∧ q.Wf ∧
      ∀ idx, InRange p.card idx →
        q.getValue idx = (match lastWrite ws idx with
          | some v => ok v
          | none => p.getValue idx) := by
  induction ws generalizing p with
  | nil => exact ⟨p, rfl, rfl, h, fun idx _ => by simp [lastWrite]⟩
  | cons w ws ih =>
    obtain ⟨q, hq, hc, hqw, hsame, hother⟩ := C02_single_write p h w.1 (hw w (by simp)) w.2
    obtain ⟨r, hr, hrc, hrw, hget⟩ := ih q hqw (fun x hx => by rw [hc]; exact hw x (by simp [hx]))
    refine ⟨r, ?_, hrc.trans hc, hrw, ?_⟩
    · unfold runWrites at hr ⊢
      rw [List.foldlM_cons, hq, ok_bind, hr]
    · intro idx hi
      rw [hget idx (by rw [hc]; exact hi)]
      unfold lastWrite
      rw [List.reverse_cons, List.find?_append]
      cases hf : ws.reverse.find? (fun w => decide (w.1 = idx)) with
      | some v => simp
      | none =>
        by_cases e : w.1 = idx
        · simp [e] at hsame ⊢; exact hsame
        · simp [e, hother idx hi (fun e' => e e'.symm)]

example : pEx.Wf ∧ (∀ w ∈ [([1, 2], (7 : ℚ)), ([0, 0], 5), ([1, 2], 8)], InRange pEx.card w.1) ∧
    lastWrite [([1, 2], (7 : ℚ)), ([0, 0], 5), ([1, 2], 8)] [1, 2] = some 8 := by decide +kernel

/-! ## C03 -/

/-- C03: the marginal. `mapping` names the kept dimensions of the source. -/
theorem C03_marginal (p q : Potential K) (hp : p.Wf) (hq : q.Wf) (mapping : List Nat)
    (hm : Into p.card mapping q.card) (hdistinct : mapping.Nodup) :
    ∃ r, generalMarginalise p q mapping = ok (0, r) ∧ r.card = q.card ∧ r.Wf ∧
      (∀ y, InRange q.card y → r.at' y = sumTuples p.card (fun x => project mapping x = y) p.at') ∧
      (q.card = [] → r.data = [((tuples p.card).map p.at').sum]) := by
  have hdim : q.card.length ≤ p.card.length := by
    rw [← into_length hm]
    have hsub : mapping ⊆ List.range p.card.length := fun m hmem => by simpa using hm.1 m hmem
    simpa using (List.subperm_of_subset hdistinct hsub).length_le
  refine ⟨_, generalMarginalise_ofFn hp hq hm hdim, rfl, ofFn_wf hq.2 _, fun y hy => ofFn_at' _ hy, ?_⟩
  intro hc
  have hmap : mapping = [] := by
    have := into_length hm; rw [hc] at this; exact List.length_eq_zero_iff.mp this
  subst hmap
  simp [ofFn, hc, digits, project, sumTuples]

/-- C03, refusal: a destination with more dimensions than the source is left unchanged. -/
theorem C03_refused (p q : Potential K) (mapping : List Nat) (h : p.card.length < q.card.length) :
    generalMarginalise p q mapping = ok (EINVAL, q) := by
  unfold generalMarginalise
  rw [if_pos (by simp only [dim]; omega)]

example : pEx.Wf ∧ (⟨[3], [9, 9, 9]⟩ : Potential ℚ).Wf ∧ Into pEx.card [1] [3] ∧ [1].Nodup ∧
    generalMarginalise pEx ⟨[3], [9, 9, 9]⟩ [1] = ok (0, ⟨[3], [3, 7, 0]⟩) := by decide +kernel

/-! ## C04 -/

/-- C04: the fast path gives for each state the sum of all cells having that state, writes exactly as many entries as the
variable has states, and agrees with the general path. -/
theorem C04_total (p : Potential K) (hp : p.Wf) (v : Nat) (hv : v < p.card.length) (dest : List K)
    (hl : p.card[v] ≤ dest.length) :
    ∃ r, totalMarginalise p dest v = ok (0, r) ∧ r.length = dest.length ∧
      (∀ k, k < p.card[v] → r[k]? = some (sumTuples p.card (fun x => x.getD v 0 = k) p.at')) ∧
      (∀ k, p.card[v] ≤ k → r[k]? = dest[k]?) ∧
      (∀ q : Potential K, q.Wf → q.card = [p.card[v]] →
        ∃ g, generalMarginalise p q [v] = ok (0, g) ∧ r.take p.card[v] = g.data) := by
  refine ⟨_, totalMarginalise_eq hp hv hl, by simp, ?_, ?_, ?_⟩
  · intro k hk
    have : k < dest.length := by omega
    simp [hk, this]
  · intro k hk
    have : ¬ k < p.card[v] := by omega
    by_cases h : k < dest.length
    · simp [this, h]
    · simp [h]
  · intro q hq hc
    have hinto : Into p.card [v] q.card := ⟨by simpa using hv, by simp [hc, hv]⟩
    refine ⟨_, generalMarginalise_ofFn hp hq hinto (by rw [hc]; simp; omega), ?_⟩
    unfold ofFn
    apply List.ext_getElem
    · simp [hc, hl]
    · intro k h1 h2
      have hk : k < p.card[v] := by simpa [hc] using h2
      simp only [List.getElem_take, List.getElem_mapIdx, hk, if_true, List.getElem_map, List.getElem_range]
      apply sumTuples_congr
      · intro x _
        simp [hc, digits, project, Nat.mod_eq_of_lt hk]
      · intros; rfl

/-- C04, refusal. -/
theorem C04_refused (p : Potential K) (dest : List K) (v : Int) (h : v < 0 ∨ (p.card.length : Int) ≤ v) :
    totalMarginalise p dest v = ok (EINVAL, dest) := by
  unfold totalMarginalise
  rw [if_pos (by simpa [dim] using h)]

example : pEx.Wf ∧ 1 < pEx.card.length ∧
    totalMarginalise pEx [9, 9, 9, 9] 1 = ok (0, [3, 7, 0, 9]) := by decide +kernel

/-! ## C05 -/

/-- C05, mass: the entries of a marginal sum to the total of the source. -/
theorem C05_mass (p q r : Potential K) (hp : p.Wf) (hq : q.Wf) (mapping : List Nat)
    (hm : Into p.card mapping q.card) (hdim : q.card.length ≤ p.card.length)
    (hr : generalMarginalise p q mapping = ok (0, r)) :
    ((tuples q.card).map r.at').sum = ((tuples p.card).map p.at').sum ∧ r.data.sum = p.data.sum := by
  have hsum : ∀ s : Potential K, s.Wf → s.data.sum = ((tuples s.card).map s.at').sum := fun s hs => by
    rw [tuples_eq hs.2, List.map_map]
    congr 1
    apply List.ext_getElem
    · simp [hs.1]
    · intro i h1 h2
      simp [at'_digits hs h1]
  rw [generalMarginalise_ofFn hp hq hm hdim] at hr
  simp only [ok.injEq, Prod.mk.injEq, true_and] at hr
  subst hr
  have key : ((tuples q.card).map (ofFn q.card
      (fun y => sumTuples p.card (fun x => project mapping x = y) p.at')).at').sum
      = ((tuples p.card).map p.at').sum := by
    have := sumTuples_project hm (fun _ => True) p.at'
    rw [sumTuples_true, sumTuples_true] at this
    rw [← this]
    congr 1
    apply List.map_congr_left
    intro y hy
    exact ofFn_at' _ (mem_tuples.mp hy)
  refine ⟨key, ?_⟩
  rw [hsum _ (ofFn_wf hq.2 _), hsum p hp]
  exact key

/-- C05, composition: two marginalisations are the one with the composed choice of dimensions. -/
theorem C05_compose (p q1 q2 q2' r1 r2 : Potential K) (hp : p.Wf) (hq1 : q1.Wf) (hq2 : q2.Wf) (hq2' : q2'.Wf)
    (m1 m2 : List Nat) (h1 : Into p.card m1 q1.card) (h2 : Into q1.card m2 q2.card) (hc : q2'.card = q2.card)
    (hd1 : q1.card.length ≤ p.card.length) (hd2 : q2.card.length ≤ q1.card.length)
    (hr1 : generalMarginalise p q1 m1 = ok (0, r1)) (hr2 : generalMarginalise r1 q2 m2 = ok (0, r2)) :
    generalMarginalise p q2' (m2.map (fun m => m1.getD m 0)) = ok (0, r2) := by
  have h12 : Into p.card (m2.map (fun m => m1.getD m 0)) q2'.card := hc ▸ into_comp h1 h2
  rw [generalMarginalise_ofFn hp hq1 h1 hd1] at hr1
  simp only [ok.injEq, Prod.mk.injEq, true_and] at hr1
  subst hr1
  rw [generalMarginalise_ofFn (ofFn_wf hq1.2 _) hq2 h2 hd2] at hr2
  rw [← hr2, generalMarginalise_ofFn hp hq2' h12 (by rw [hc]; omega), hc]
  congr 2
  apply ofFn_congr hq2.2
  intro y hy
  change _ = sumTuples q1.card _ _
  rw [sumTuples_congr (card := q1.card) (fun x _ => Iff.rfl) (fun x hx => ofFn_at' _ hx)]
  rw [sumTuples_project h1 (fun x => project m2 x = y)]
  apply sumTuples_congr
  · intro x _
    rw [project_comp (by rw [into_length h1]; exact h2.1)]
  · intros; rfl

example : pEx.Wf ∧ Into pEx.card [1, 0] [3, 2] ∧ Into [3, 2] [1] [2] ∧ ([1].map (fun m => [1, 0].getD m 0)) = [0] := by
  decide +kernel

/-! ## C06 -/

theorem normaliseArray_full (d : List K) :
    normaliseArray d 0 d.length = ok (if d.sum = 0 then d else d.map (· / d.sum)) := by
  have hs : segSum d 0 d.length = d.sum := by
    unfold segSum
    rw [← sum_range_list]
    congr 1
    apply List.ext_getElem
    · simp
    · intro i h1 h2; simp [h2]
  rw [normaliseArray_eq (by omega), hs]
  congr 1
  split
  · rfl
  · apply List.ext_getElem
    · simp
    · intro i h1 h2
      have : i < d.length := by simpa using h2
      simp [this]

theorem sum_map_div (d : List K) (c : K) : (d.map (· / c)).sum = d.sum / c := by
  induction d with
  | nil => simp
  | cons a d ih => simp [ih, add_div]

theorem sum_map_mul (d : List K) (c : K) : (d.map (c * ·)).sum = c * d.sum := by
  induction d with
  | nil => simp
  | cons a d ih => simp [ih, mul_add]

/-- C06 for arrays: result, unit sum, zero sum unchanged, idempotence, invariance under scaling. -/
theorem C06_array (d : List K) :
    ∃ r, normaliseArray d 0 d.length = ok r ∧ r.length = d.length ∧
      (d.sum ≠ 0 → r.sum = 1 ∧ ∀ i (h : i < d.length) (h' : i < r.length), r[i] = d[i] / d.sum) ∧
      (d.sum = 0 → r = d) ∧
      normaliseArray r 0 r.length = ok r ∧
      (d.sum ≠ 0 → ∀ c : K, c ≠ 0 → normaliseArray (d.map (c * ·)) 0 d.length = ok r) := by
  refine ⟨_, normaliseArray_full d, by split <;> simp, ?_, ?_, ?_, ?_⟩
  · intro hs
    simp only [hs, if_false]
    exact ⟨by rw [sum_map_div, div_self hs], fun i h h' => by simp⟩
  · intro hs; simp [hs]
  · rw [normaliseArray_full]
    by_cases hs : d.sum = 0
    · simp [hs]
    · simp only [hs, if_false]
      have h1 : (d.map (· / d.sum)).sum = 1 := by rw [sum_map_div, div_self hs]
      simp [h1]
  · intro hs c hc
    have hl : d.length = (d.map (c * ·)).length := by simp
    rw [hl, normaliseArray_full]
    simp only [sum_map_mul, mul_eq_zero, hc, hs, or_self, if_false, List.map_map]
    congr 1
    apply List.map_congr_left
    intro a _
    simp only [Function.comp]
    rw [mul_div_mul_left _ _ hc]

/-- C06 for potentials: the same, the shape being kept. -/
theorem C06_potential (p : Potential K) :
    ∃ r, p.normalise = ok r ∧ r.card = p.card ∧ r.data.length = p.data.length ∧
      (p.data.sum ≠ 0 → r.data.sum = 1 ∧ (p.Wf → ∀ x, InRange p.card x → r.at' x = p.at' x / p.data.sum)) ∧
      (p.data.sum = 0 → r = p) ∧ r.normalise = ok r ∧
      (p.data.sum ≠ 0 → ∀ c : K, c ≠ 0 →
        (⟨p.card, p.data.map (c * ·)⟩ : Potential K).normalise = ok r) := by
  obtain ⟨r, h1, h2, h3, h4, h5, h6⟩ := C06_array p.data
  refine ⟨⟨p.card, r⟩, ?_, rfl, h2, ?_, ?_, ?_, ?_⟩
  · simp only [normalise, size, h1, ok_bind]
  · intro hs
    refine ⟨(h3 hs).1, fun hw x hx => ?_⟩
    have hr : (⟨p.card, r⟩ : Potential K).Wf := ⟨by rw [h2]; exact hw.1, hw.2⟩
    rw [at'_eq_getElem hr hx, at'_eq_getElem hw hx]
    exact (h3 hs).2 _ _ _
  · intro hs; rw [h4 hs]
  · simp only [normalise, size, h5, ok_bind]
  · intro hs c hc
    simp only [normalise, size, List.length_map, h6 hs c hc, ok_bind]

example : pEx.data.sum ≠ 0 ∧ pEx.normalise = ok ⟨[2, 3], [1/10, 2/10, 3/10, 4/10, 0, 0]⟩ := by decide +kernel

/-! ## C07 -/

/-- C07: `n` is the number of states of the first variable, `t` a tuple of states of the others. -/
theorem C07_columns (p : Potential K) (hp : p.Wf) (n : Nat) (cs : List Nat) (hc : p.card = n :: cs) :
    ∃ r, p.normaliseCpd = ok r ∧ r.card = p.card ∧ r.Wf ∧
      (∀ t, InRange cs t →
        ((∑ i ∈ Finset.range n, p.at' (i :: t)) ≠ 0 →
          (∑ i ∈ Finset.range n, r.at' (i :: t)) = 1 ∧
          ∀ k, k < n → r.at' (k :: t) = p.at' (k :: t) / ∑ i ∈ Finset.range n, p.at' (i :: t)) ∧
        ((∑ i ∈ Finset.range n, p.at' (i :: t)) = 0 → ∀ k, k < n → r.at' (k :: t) = p.at' (k :: t))) ∧
      r.normaliseCpd = ok r := by
  obtain ⟨r, hr, hrw, hrc, hval⟩ := normaliseCpd_at' hp hc
  have hcol : ∀ t, InRange cs t → (∑ i ∈ Finset.range n, p.at' (i :: t)) ≠ 0 →
      (∑ i ∈ Finset.range n, r.at' (i :: t)) = 1 := by
    intro t ht hs
    have : ∀ i ∈ Finset.range n, r.at' (i :: t) = p.at' (i :: t) / ∑ i ∈ Finset.range n, p.at' (i :: t) := by
      intro i hi
      rw [hval i t (by simpa using hi) ht, if_neg hs]
    rw [Finset.sum_congr rfl this, ← Finset.sum_div, div_self hs]
  refine ⟨r, hr, hrc, hrw, fun t ht => ⟨fun hs => ⟨hcol t ht hs, fun k hk => ?_⟩, fun hs k hk => ?_⟩, ?_⟩
  · rw [hval k t hk ht, if_neg hs]
  · rw [hval k t hk ht, if_pos hs]
  · obtain ⟨r2, hr2, hr2w, hr2c, hval2⟩ := normaliseCpd_at' hrw (hrc.trans hc)
    rw [hr2]
    congr 1
    apply ext_at' hr2w hrw hr2c
    intro idx hidx
    rw [hr2c, hrc, hc] at hidx
    cases hidx with
    | @cons k _ t _ hk ht =>
      rw [hval2 k t hk ht]
      by_cases hs : (∑ i ∈ Finset.range n, p.at' (i :: t)) = 0
      · have hz : (∑ i ∈ Finset.range n, r.at' (i :: t)) = 0 := by
          rw [← hs]
          apply Finset.sum_congr rfl
          intro i hi
          rw [hval i t (by simpa using hi) ht, if_pos hs]
        rw [if_pos hz]
      · rw [hcol t ht hs]; simp

/-- C07, locality: entries of one combination of the other variables do not depend on the other columns. -/
theorem C07_local (p q : Potential K) (hp : p.Wf) (hq : q.Wf) (n : Nat) (cs : List Nat) (hc : p.card = n :: cs)
    (hcq : q.card = n :: cs) (t : List Nat) (ht : InRange cs t)
    (hsame : ∀ k, k < n → p.at' (k :: t) = q.at' (k :: t)) :
    ∃ r s, p.normaliseCpd = ok r ∧ q.normaliseCpd = ok s ∧ ∀ k, k < n → r.at' (k :: t) = s.at' (k :: t) := by
  obtain ⟨r, hr, _, _, hval⟩ := normaliseCpd_at' hp hc
  obtain ⟨s, hs, _, _, hvals⟩ := normaliseCpd_at' hq hcq
  refine ⟨r, s, hr, hs, fun k hk => ?_⟩
  have : (∑ i ∈ Finset.range n, p.at' (i :: t)) = ∑ i ∈ Finset.range n, q.at' (i :: t) :=
    Finset.sum_congr rfl (fun i hi => hsame i (by simpa using hi))
  rw [hval k t hk ht, hvals k t hk ht, this, hsame k hk]

example : pEx.Wf ∧ pEx.normaliseCpd = ok ⟨[2, 3], [1/3, 2/3, 3/7, 4/7, 0, 0]⟩ := by decide +kernel

/-! ## C08 -/

/-- What `nip_normalise_dimension` does: every cell is divided by the marginal *of* its own state in that dimension (not
by the sum over that dimension). -/
theorem C08_dimension_actual (p : Potential K) (hp : p.Wf) (v : Nat) (hv : v < p.card.length) :
    ∃ r, p.normaliseDimension v = ok (0, r) ∧ r.card = p.card ∧ r.Wf ∧ ∀ x, InRange p.card x →
      r.at' x = (if sumTuples p.card (fun z => z.getD v 0 = x.getD v 0) p.at' = 0 then 0
        else p.at' x / sumTuples p.card (fun z => z.getD v 0 = x.getD v 0) p.at') := by
  have hcpos : 0 < p.card[v] := hp.2 _ (List.getElem_mem hv)
  have hpos1 : Positive [p.card[v]] := by intro c hc; simp at hc; omega
  have hw1 : (⟨[p.card[v]], List.replicate p.card[v] 1⟩ : Potential K).Wf := ⟨by simp, hpos1⟩
  have hinto : Into p.card [v] [p.card[v]] := ⟨by simpa using hv, by simp [hv]⟩
  have hg := generalMarginalise_ofFn hp hw1 hinto (by simp; omega)
  set den := ofFn [p.card[v]] (fun y => sumTuples p.card (fun x => project [v] x = y) p.at') with hden
  have hdenw : den.Wf := ofFn_wf hpos1 _
  have hu := update_ofFn (num := none) (den := some den) hp (mapping := [v]) (by simp) (by simp)
    (fun d hd => by obtain rfl : den = d := by simpa using hd
                    exact ⟨hdenw, hinto⟩) (by simp)
  refine ⟨ofFn p.card (fun x => updCell none (some den) [v] x (p.at' x)), ?_, rfl, ofFn_wf hp.2 _, ?_⟩
  · unfold normaliseDimension
    rw [if_neg (by simp only [dim]; omega)]
    have hn := new_none (K := K) (card := [p.card[v]])
    simp only [List.length_singleton, List.prod_singleton, Nat.cast_one] at hn
    simp only [Int.toNat_natCast, rd_lt hv, ok_bind, hn, hg, hu]
  · intro x hx
    rw [ofFn_at' _ hx]
    have hr : InRange [p.card[v]] (project [v] x) := project_inRange hinto hx
    have e : den.at' (project [v] x) = sumTuples p.card (fun z => z.getD v 0 = x.getD v 0) p.at' := by
      rw [hden, ofFn_at' _ hr]
      apply sumTuples_congr
      · intro z _; simp [project]
      · intros; rfl
    simp only [updCell, e]

/-- C08 is false: the two functions documented as equivalent differ (here on a table that is already a proper conditional
distribution, which the second one destroys). -/
theorem C08_refuted : ∃ p : Potential ℚ, p.Wf ∧ p.card ≠ [] ∧ p.normaliseCpd = ok p ∧
    ∃ r, p.normaliseDimension 0 = ok (0, r) ∧ p.normaliseCpd ≠ ok r :=
  ⟨⟨[2, 2], [1/4, 3/4, 1/2, 1/2]⟩, by decide +kernel, by decide, by decide +kernel,
    ⟨[2, 2], [1/3, 3/5, 2/3, 2/5]⟩, by decide +kernel, by decide +kernel⟩

/-- C08 (partial): the two agree on exactly those tables in which, for every cell, dividing by the marginal of the cell's own
state happens to give the same as dividing by the column sum (and zero columns are zero throughout).
Missing: the equivalence for all potentials, which is false (`C08_refuted`). -/
theorem C08_equivalence_partial (p : Potential K) (hp : p.Wf) (n : Nat) (cs : List Nat) (hc : p.card = n :: cs) :
    (∃ r, p.normaliseCpd = ok r ∧ p.normaliseDimension 0 = ok (0, r)) ↔
    ∀ k t, k < n → InRange cs t →
      (if (∑ i ∈ Finset.range n, p.at' (i :: t)) = 0 then p.at' (k :: t)
        else p.at' (k :: t) / ∑ i ∈ Finset.range n, p.at' (i :: t)) =
      (if sumTuples p.card (fun z => z.getD 0 0 = k) p.at' = 0 then 0
        else p.at' (k :: t) / sumTuples p.card (fun z => z.getD 0 0 = k) p.at') := by
  obtain ⟨a, ha, haw, hac, hval⟩ := normaliseCpd_at' hp hc
  obtain ⟨b, hb, hbc, hbw, hvalb⟩ := C08_dimension_actual p hp 0 (by simp [hc])
  have hb' : p.normaliseDimension 0 = ok (0, b) := hb
  constructor
  · rintro ⟨r, h1, h2⟩ k t hk ht
    rw [ha] at h1; rw [hb'] at h2
    simp only [ok.injEq, Prod.mk.injEq, true_and] at h1 h2
    rw [← hval k t hk ht, h1, ← h2, hvalb (k :: t) (by rw [hc]; exact List.Forall₂.cons hk ht)]
    rfl
  · intro h
    refine ⟨a, ha, ?_⟩
    rw [hb']
    congr 2
    apply ext_at' hbw haw (hbc.trans hac.symm)
    intro x hx
    rw [hbc] at hx
    rw [hvalb x hx]
    rw [hc] at hx
    cases hx with
    | @cons k _ t _ hk ht => rw [hval k t hk ht, h k t hk ht]; rfl

example : let p : Potential ℚ := ⟨[2, 2], [1/2, 1/2, 1/2, 1/2]⟩
    p.Wf ∧ p.normaliseCpd = ok p ∧ p.normaliseDimension 0 = ok (0, p) := by decide +kernel

/-! ## C09 -/

/-- The factor by which the specification multiplies / divides. -/
def specUpdate (num den : Option K) (a : K) : K :=
  let b := a * num.getD 1
  match den with
  | some d => if d = 0 then 0 else b / d
  | none => b

/-- C09: cell by cell multiplication and division, no access outside a table, for any mapping into the target's dimensions. -/
theorem C09_update (p : Potential K) (hp : p.Wf) (num den : Option (Potential K)) (mapping : List Nat)
    (hsome : num ≠ none ∨ den ≠ none)
    (hn : ∀ n, num = some n → n.Wf ∧ Into p.card mapping n.card)
    (hd : ∀ d, den = some d → d.Wf ∧ Into p.card mapping d.card)
    (hdim : num ≠ none → den ≠ none → mapping.length ≤ p.card.length) :
    ∃ r, update num den p mapping = ok (0, r) ∧ r.card = p.card ∧ r.Wf ∧
      ∀ x, InRange p.card x → r.at' x =
        specUpdate (num.map (·.at' (project mapping x))) (den.map (·.at' (project mapping x))) (p.at' x) := by
  refine ⟨_, update_ofFn hp hsome hn hd hdim, rfl, ofFn_wf hp.2 _, fun x hx => ?_⟩
  rw [ofFn_at' _ hx]
  unfold updCell specUpdate
  cases num <;> cases den <;> simp

/-- C09, refusals. -/
theorem C09_refused (p : Potential K) (num den : Option (Potential K)) (mapping : List Nat)
    (h : (num = none ∧ den = none) ∨ ∃ n d, num = some n ∧ den = some d ∧
      (n.card.length ≠ d.card.length ∨ p.card.length < n.card.length)) :
    update num den p mapping = ok (EINVAL, p) := by
  rcases h with ⟨rfl, rfl⟩ | ⟨n, d, rfl, rfl, h⟩
  · simp [update]
  · unfold update
    have : (n.dim != d.dim || decide (n.dim > p.dim)) = true := by
      rcases h with h | h
      · simp [dim, h]
      · simp [dim, h]
    simp only [this, if_true]

example : pEx.Wf ∧ (⟨[3], [2, 0, 5]⟩ : Potential ℚ).Wf ∧ Into pEx.card [1] [3] ∧
    update (some ⟨[3], [4, 4, 4]⟩) (some ⟨[3], [2, 0, 5]⟩) pEx [1] = ok (0, ⟨[2, 3], [2, 4, 0, 0, 0, 0]⟩) := by
  decide +kernel

/-! ## C10 -/

/-- C10: evidence multiplies along one variable. -/
theorem C10_evidence (p : Potential K) (hp : p.Wf) (num : List K) (den : Option (List K)) (v : Nat)
    (hv : v < p.card.length) (hn : num.length = p.card[v]) (hd : ∀ d, den = some d → d.length = p.card[v]) :
    ∃ r, updateEvidence num den p v = ok r ∧ r.card = p.card ∧ r.Wf ∧
      ∀ x, InRange p.card x →
        r.at' x = (let s := x.getD v 0
          match den with
          | none => p.at' x * num.getD s 0
          | some d => if d.getD s 0 = 0 then p.at' x * num.getD s 0
              else p.at' x * num.getD s 0 / d.getD s 0) := by
  refine ⟨_, updateEvidence_ofFn hp hv hn.ge (fun d h => (hd d h).ge), rfl, ofFn_wf hp.2 _, fun x hx => ?_⟩
  rw [ofFn_at' _ hx]
  unfold evCell
  cases den <;> rfl

/-- C10, replacement: replacing evidence `a` by `b`, then `b` by `c`, is replacing `a` by `c`. -/
theorem C10_replace (p : Potential K) (hp : p.Wf) (v : Nat) (hv : v < p.card.length) (a b c : List K)
    (ha : a.length = p.card[v]) (hb : b.length = p.card[v]) (hc : c.length = p.card[v])
    (ha0 : ∀ z ∈ a, z ≠ 0) (hb0 : ∀ z ∈ b, z ≠ 0) :
    ∃ q r, updateEvidence b (some a) p v = ok q ∧ updateEvidence c (some b) q v = ok r ∧
      updateEvidence c (some a) p v = ok r := by
  have some_len : ∀ {l : List K}, l.length = p.card[v] → ∀ d, some l = some d → p.card[v] ≤ d.length := by
    intro l hl d h; obtain rfl : l = d := by simpa using h
    exact hl.ge
  refine ⟨_, _, updateEvidence_ofFn hp hv hb.ge (some_len ha),
    updateEvidence_ofFn (ofFn_wf hp.2 _) hv hc.ge (some_len hb), ?_⟩
  rw [updateEvidence_ofFn hp hv hc.ge (some_len ha)]
  congr 1
  apply ofFn_congr hp.2
  intro x hx
  rw [ofFn_at' _ hx]
  have hvx : v < x.length := by rw [inRange_length hx]; exact hv
  have hs : x.getD v 0 < p.card[v] := by
    rw [List.getD_eq_getElem _ _ hvx]; exact List.Forall₂.get hx hvx hv
  have ea : a.getD (x.getD v 0) 0 ≠ 0 := by
    rw [List.getD_eq_getElem _ _ (by omega)]; exact ha0 _ (List.getElem_mem _)
  have eb : b.getD (x.getD v 0) 0 ≠ 0 := by
    rw [List.getD_eq_getElem _ _ (by omega)]; exact hb0 _ (List.getElem_mem _)
  simp only [evCell, ea, eb, if_false]
  field_simp

example : pEx.Wf ∧ updateEvidence [1, 0, 4] (some [1, 2, 8]) pEx 1 = ok ⟨[2, 3], [1, 2, 0, 0, 0, 0]⟩ := by
  decide +kernel

/-! ## C11 -/

/-- A factor: a table and, possibly, the dimensions of the target it is about. -/
abbrev Factor (K : Type) := Potential K × Option (List Nat)

/-- Multiply several factors into a potential, one after the other. -/
def initAll (p : Potential K) (fs : List (Factor K)) : Res (Nat × Potential K) :=
  fs.foldlM (fun (s : Nat × Potential K) f => do
    let r ← init f.1 s.2 f.2
    ok (if s.1 = 0 then r.1 else s.1, r.2)) (0, p)

/-- The factor fits the shape `card`: with a mapping it is a non-scalar table over the named dimensions, without a mapping
it has the very same shape. -/
def Fits (card : List Nat) (f : Factor K) : Prop :=
  f.1.Wf ∧ match f.2 with
    | some m => Into card m f.1.card ∧ f.1.card ≠ []
    | none => f.1.card = card

/-- The entry of the factor that matches a tuple of the target. -/
def factorAt (f : Factor K) (x : List Nat) : K :=
  match f.2 with
  | some m => f.1.at' (project m x)
  | none => f.1.at' x

theorem init_fits (p : Potential K) (hp : p.Wf) (f : Factor K) (hf : Fits p.card f) :
    init f.1 p f.2 = ok (0, ofFn p.card (fun x => p.at' x * factorAt f x)) := by
  obtain ⟨q, m⟩ := f
  obtain ⟨hq, hm⟩ := hf
  cases m with
  | none => exact init_ofFn_none hp hq hm
  | some m =>
    exact init_ofFn_mapping hp hq hm.1 (fun h => hm.2 (List.length_eq_zero_iff.mp h))

/-- C11: each cell is multiplied by the product of the matching factor entries. -/
theorem C11_product (p : Potential K) (hp : p.Wf) (fs : List (Factor K)) (hf : ∀ f ∈ fs, Fits p.card f) :
    ∃ r, initAll p fs = ok (0, r) ∧ r.card = p.card ∧ r.Wf ∧
      ∀ x, InRange p.card x → r.at' x = p.at' x * (fs.map (factorAt · x)).prod := by
  induction fs generalizing p with
  | nil => exact ⟨p, rfl, rfl, hp, fun x _ => by simp⟩
  | cons f fs ih =>
    have h1 := init_fits p hp f (hf f (by simp))
    have hw : (ofFn p.card (fun x => p.at' x * factorAt f x)).Wf := ofFn_wf hp.2 _
    obtain ⟨r, hr, hrc, hrw, hv⟩ := ih _ hw (fun g hg => hf g (by simp [hg]))
    refine ⟨r, ?_, hrc, hrw, fun x hx => ?_⟩
    · unfold initAll at hr ⊢
      rw [List.foldlM_cons, h1]
      simp only [ok_bind, if_true]
      exact hr
    · rw [hv x hx, ofFn_at' _ hx, List.map_cons, List.prod_cons, mul_assoc]

/-- C11: the order of the factors does not matter. -/
theorem C11_order (p : Potential K) (hp : p.Wf) (fs gs : List (Factor K)) (hperm : fs.Perm gs)
    (hf : ∀ f ∈ fs, Fits p.card f) : initAll p fs = initAll p gs := by
  obtain ⟨r, hr, hrc, hrw, hv⟩ := C11_product p hp fs hf
  obtain ⟨s, hs, hsc, hsw, hv'⟩ := C11_product p hp gs (fun f h => hf f (hperm.mem_iff.mpr h))
  rw [hr, hs]
  congr 2
  apply ext_at' hrw hsw (hrc.trans hsc.symm)
  intro x hx
  rw [hrc] at hx
  rw [hv x hx, hv' x hx, (hperm.map _).prod_eq]

/-- C11, refusal: without a mapping the number of cells must be the same. -/
theorem C11_refused (p q : Potential K) (h : q.data.length ≠ p.data.length) :
    init q p none = ok (EFAULT, p) := by
  simp [init, size, h]

example : Fits pEx.card ((⟨[3], [1, 2, 3]⟩ : Potential ℚ), some [1]) ∧ Fits pEx.card (pEx, none) ∧
    initAll pEx [(⟨[3], [1, 2, 3]⟩, some [1]), (pEx, none)] = ok (0, ⟨[2, 3], [1, 4, 18, 32, 0, 0]⟩) := by
  refine ⟨⟨by decide +kernel, by decide, by decide⟩, ⟨by decide +kernel, rfl⟩, by decide +kernel⟩

/-! ## C12 -/

/-- C12: retraction restores the reference exactly. -/
theorem C12_retract (p ref : Potential K) (hp : p.Wf) (hr : ref.Wf) (hc : p.card = ref.card) :
    p.retract ref = ok (0, ref) := retract_ok hp.1 hr.1 hc

/-- C12, refusal: any difference of shape is refused and nothing changes. -/
theorem C12_refused (p ref : Potential K) (hc : p.card ≠ ref.card) :
    p.retract ref = ok (EINVAL, p) := retract_refuses hc

example : pEx.Wf ∧ (⟨[2, 3], [0, 0, 0, 0, 0, 7]⟩ : Potential ℚ).Wf ∧ pEx.card ≠ [3, 2] := by decide +kernel

end Nip.Props
