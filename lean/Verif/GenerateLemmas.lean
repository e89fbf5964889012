import Verif.Generate
import Verif.Likelihood
import Verif.Spec.Generated
import Verif.Props.Sampling

/-! # What data are generated -/

namespace Nip

open Res Spec Model

set_option linter.unusedSectionVars false

variable {K : Type} [Field K] [LinearOrder K] [IsStrictOrderedRing K]

/-! ### what is known -/

theorem total_seen {f : NetFile K} {seen seen' : Nat → Nat → Int} {t : Nat} (h : ∀ s, s < t → seen s = seen' s) : total f seen t = total f seen' t := by
  cases t with
  | zero => rw [total_zero, total_zero]
  | succ t =>
    rw [total_succ, total_succ]
    refine sumOver_congr' fun z => ?_
    rw [fwd_seen (fun s hs => h s (by omega))]
    congr 1
    unfold slice
    rw [h t (Nat.lt_succ_self t)]

theorem Alpha.congr {f : NetFile K} {seen seen' : Nat → Nat → Int} {t : Nat} {a : Potential K} (ha : Alpha f seen t a) (h : ∀ s, s < t → seen s = seen' s) :
    Alpha f seen' t a := by
  refine ⟨ha.table, ha.nonneg, ?_⟩
  intro h1
  obtain ⟨c, h2, h3⟩ := ha.value (fun e => by rw [total_seen h]; exact h1 e)
  exact ⟨c, h2, fun x hx => by rw [h3 x hx, fwd_seen h]⟩

theorem known_congr {order : List Nat} {row row' : List Int} {i : Nat} (h : ∀ j, j < i → row[j]? = row'[j]?) : known order row i = known order row' i := by
  funext v
  unfold known
  split
  · rename_i hv
    rw [List.getD_eq_getElem?_getD, List.getD_eq_getElem?_getD, h _ hv]
  · rfl

theorem known_zero (order : List Nat) (row : List Int) : known order row 0 = fun _ => -1 := by
  funext v; simp [known]

/-- one more value -/
theorem vision_known_succ (card : Nat → Nat) {order : List Nat} (hn : order.Nodup) {row : List Int} {i : Nat} (hi : i < order.length) {k : Nat}
    (hk : row[i]? = some (k : Int)) :
    vision (K := K) card (known order row (i + 1)) =
      Function.update (vision card (known order row i)) order[i] (indicator (card order[i]) (k : Int)) := by
  funext v
  by_cases e : v = order[i]
  · subst e
    rw [Function.update_self]
    unfold vision known
    rw [hn.idxOf_getElem i hi, if_pos (Nat.lt_succ_self i), List.getD_eq_getElem?_getD, hk]
    rw [if_neg (by simp)]
    rfl
  · rw [Function.update_of_ne e]
    have : known order row (i + 1) v = known order row i v := by
      unfold known
      by_cases h : order.idxOf v < i
      · rw [if_pos h, if_pos (by omega)]
      · rw [if_neg h, if_neg]
        intro h'
        have : order.idxOf v = i := by omega
        apply e
        have hm : v ∈ order := List.idxOf_lt_length_iff.mp (by omega)
        have := List.getElem_idxOf (List.idxOf_lt_length_iff.mpr hm)
        simp only [‹order.idxOf v = i›] at this
        exact this.symm
    unfold vision
    rw [this]

theorem vision_known_next (card : Nat → Nat) {order : List Nat} (hn : order.Nodup) (row : List Int) {i : Nat} (hi : i < order.length) :
    vision (K := K) card (known order row i) order[i] = List.replicate (card order[i]) 1 := by
  refine vision_unseen ?_
  unfold known
  rw [hn.idxOf_getElem i hi, if_neg (Nat.lt_irrefl i)]
  decide

namespace Model

theorem Carries.probability {net : Net K} {m : Model K} {w : World K} {T : Asg → K} (h : Carries net m w T)
    (ha : m.tree.Agrees net.card (m.tree.st net.card)) {v : Nat} (hv : v ∈ net.vars) :
    ∃ m', m.getProbability v = ok (some (if (sums net T v).sum = 0 then sums net T v else (sums net T v).map (· / (sums net T v).sum)), m') ∧
      Keeps net m m' ∧ Carries net m' w T := by
  obtain ⟨m', h1, h2, h3, _⟩ := h.posterior ha hv
  refine ⟨m', ?_, h2, h3⟩
  unfold Nip.posterior at h1
  unfold getProbability
  cases e1 : m.findFamily v with
  | ub => rw [e1] at h1; cases h1
  | ok p =>
    obtain ⟨c, m1⟩ := p
    rw [e1, ok_bind] at h1
    rw [ok_bind]
    cases c with
    | none => cases h1
    | some c =>
      simp only at h1 ⊢
      cases e2 : m1.tree.marginaliseClique c v (List.replicate (m1.var v).card 0) with
      | ub => rw [e2] at h1; cases h1
      | ok q =>
        obtain ⟨_, r⟩ := q
        rw [e2, ok_bind] at h1
        rw [ok_bind]
        simp only at h1 ⊢
        cases e3 : Potential.normaliseArray r 0 (m1.var v).card with
        | ub => rw [e3] at h1; cases h1
        | ok r' =>
          rw [e3, ok_bind] at h1
          rw [ok_bind]
          cases h1
          rfl

/-- a variable nothing was known about is seen -/
theorem Carries.see {net : Net K} {m : Model K} {w : World K} {T : Asg → K} (hl : Local net) {v : Nat} (hv : v ∈ net.vars) (k : Nat)
    (h : Carries net m w (fun x => T x * sight net w.evidence x)) (hw : w.evidence v = List.replicate (net.card v) 1) :
    ∃ m', m.enterIndexObservation v (k : Int) = ok (0, m') ∧ Keeps net m m' ∧
      Carries net m' { w with evidence := Function.update w.evidence v (indicator (net.card v) (k : Int)) }
        (fun x => T x * sight net (Function.update w.evidence v (indicator (net.card v) (k : Int))) x) := by
  obtain ⟨m2, g1, g2, g3⟩ := h.observe (i := (k : Int)) (by omega) hv (by
    rintro ⟨j, hj, h1, _⟩
    rw [hw, getD_ones hj] at h1
    exact one_ne_zero h1)
  refine ⟨m2, g1, g2, g3.congr fun x => ?_⟩
  rw [mul_assoc]
  congr 1
  obtain ⟨R, r1, r2⟩ := evidence_prod h.sound.nodup hv w.evidence (indicator (net.card v) (k : Int)) (wrap net.card x)
  have hone : (w.evidence v).getD (x v % net.card v) 0 = 1 := by
    rw [hw]; exact getD_ones (Nat.mod_lt _ (hl.pos _ hv))
  unfold sight
  refine Eq.trans (congrArg (· * _) r1) (Eq.trans ?_ r2.symm)
  unfold factor
  simp only [wrap]
  rw [hone, if_neg one_ne_zero, one_mul, div_one, mul_comm]

end Model

/-! ### the lottery -/

/-- the first state that reaches the number -/
theorem inInterval_unique {p : List K} (hp : ∀ a ∈ p, 0 ≤ a) {r : K} {k : Nat} (h1 : r ≤ Props.cumulative p k) (h2 : ∀ j, j < k → Props.cumulative p j < r)
    (j : Nat) : InInterval p r j ↔ j = k := by
  have hmono : ∀ a b, a ≤ b → (p.take a).sum ≤ (p.take b).sum := by
    intro a b hab
    have : p.take b = p.take a ++ (p.drop a).take (b - a) := by
      rw [← List.take_append_drop a (p.take b), List.take_take, Nat.min_eq_left hab, List.drop_take]
    rw [this, List.sum_append]
    have : 0 ≤ ((p.drop a).take (b - a)).sum := List.sum_nonneg fun x hx => hp x (List.mem_of_mem_drop (List.mem_of_mem_take hx))
    linarith
  unfold InInterval
  constructor
  · rintro ⟨h3, h4⟩
    rcases lt_trichotomy j k with h | h | h
    · exact absurd h4 (not_le.mpr (h2 j h))
    · exact h
    · rcases h3 with h3 | h3
      · omega
      · exact absurd (lt_of_lt_of_le h3 h1) (not_lt.mpr (hmono (k + 1) j h))
  · rintro rfl
    refine ⟨?_, h1⟩
    rcases Nat.eq_zero_or_pos j with h | h
    · exact Or.inl h
    · right
      have := h2 (j - 1) (by omega)
      unfold Props.cumulative at this
      rwa [Nat.sub_add_cancel h] at this

theorem lottery_spec {p : List K} (hne : p ≠ []) (r : K) : ∃ (k : Nat) (b : Bool), lottery p p.length r = ok ((k : Int), b) ∧ k < p.length ∧
    (Props.Distribution p → r ≤ 1 → ∀ j, InInterval p r j ↔ j = k) := by
  obtain ⟨k, b, h1, h2, _⟩ := Props.C48_always_valid p hne r
  refine ⟨k, b, h1, h2, ?_⟩
  intro hd hr j
  obtain ⟨k', h3, h4, h5, h6⟩ := Props.C48_first_state p hd r hr
  rw [h1] at h3
  have : k = k' := by
    have h7 : ((k : Int), b) = ((k' : Int), false) := by cases h3; rfl
    have := congrArg Prod.fst h7
    simpa using this
  subst this
  exact inInterval_unique hd.1 h5 h6 j

/-! ### the values of one slice -/

theorem unrolledTotal_seen {f : NetFile K} {seen seen' : Nat → Nat → Int} {n : Nat} (h : ∀ s, s < n → seen s = seen' s) (P : (Nat → Nat → Nat) → Prop) :
    f.unrolledTotal seen n P = f.unrolledTotal seen' n P := by
  have : ∀ X, f.unrolledWeight seen n X = f.unrolledWeight seen' n X := by
    intro X
    unfold NetFile.unrolledWeight
    split
    · exact Finset.prod_congr rfl fun s hs => by rw [h s (Finset.mem_range.mp hs)]
    · rfl
  unfold NetFile.unrolledTotal
  simp only [this]

theorem unrolledPosterior_seen {f : NetFile K} {seen seen' : Nat → Nat → Int} {n : Nat} (h : ∀ s, s < n → seen s = seen' s) (t v : Nat) :
    f.unrolledPosterior seen n t v = f.unrolledPosterior seen' n t v := by
  unfold NetFile.unrolledPosterior
  simp only [unrolledTotal_seen h]

theorem sums_nonneg {net : Net K} {T : Asg → K} (h : ∀ x, 0 ≤ T x) (v : Nat) : ∀ a ∈ sums net T v, 0 ≤ a := by
  intro a ha
  obtain ⟨i, _, rfl⟩ := List.mem_map.mp ha
  exact sumOver_nonneg h _

theorem quotients_distribution {S : List K} (h : ∀ a ∈ S, 0 ≤ a) (h0 : S.sum ≠ 0) : Props.Distribution (S.map (· / S.sum)) := by
  have hs : 0 ≤ S.sum := List.sum_nonneg h
  refine ⟨?_, ?_⟩
  · intro a ha
    obtain ⟨b, hb, rfl⟩ := List.mem_map.mp ha
    exact div_nonneg (h b hb) hs
  · rw [show (S.map (· / S.sum)) = S.map (fun x => x * (S.sum)⁻¹) from List.map_congr_left fun x _ => div_eq_mul_inv _ _, List.sum_map_mul_right]
    simp [h0]

/-- the value at place `i` has been drawn as it should -/
def DrawnWell (f : NetFile K) (order : List Nat) (past : Nat → Nat → Int) (t : Nat) (r : Nat → K) (row : List Int) (i : Nat) : Prop :=
  ∀ v, order[i]? = some v → ∃ k : Nat, row[i]? = some (k : Int) ∧ k < f.card v ∧ (r i ≤ 1 → ∀ seen, (∀ s, s < t → seen s = past s) → seen t = known order row i →
    total f seen (t + 1) ≠ 0 → ∀ j, InInterval (f.unrolledPosterior seen (t + 1) t v) (r i) j ↔ j = k)

theorem DrawnWell.congr {f : NetFile K} {order : List Nat} {past : Nat → Nat → Int} {t : Nat} {r : Nat → K} {row row' : List Int} {i : Nat}
    (h : DrawnWell f order past t r row i) (e : ∀ j, j ≤ i → row[j]? = row'[j]?) : DrawnWell f order past t r row' i := by
  intro v hv
  obtain ⟨k, h1, h2, h3⟩ := h v hv
  refine ⟨k, by rw [← e i (le_refl i)]; exact h1, h2, ?_⟩
  intro hr seen hs ht
  exact h3 hr seen hs (by rw [ht]; exact known_congr fun j hj => (e j (by omega)).symm)

/-- what a model is after the first `i` values of a slice have been drawn -/
structure InSlice (f : NetFile K) (order : List Nat) (t : Nat) (a : Potential K) (m : Model K) (row : List Int) (i : Nat) : Prop where
  carries : ∃ w, Model.Carries f.net m w (fun x => before f t a x * sight f.net (vision f.card (known order row i)) x) ∧
    w.evidence = vision f.card (known order row i)
  length : row.length = order.length

theorem drawVariable_spec {f : NetFile K} (hf : f.Valid) (htm : f.Temporal) {order : List Nat} (hn : order.Nodup) (hsub : ∀ v ∈ order, v ∈ f.vars)
    {past : Nat → Nat → Int} {t : Nat} {a : Potential K} (ha : Alpha f past t a) (r : Nat → K) {i : Nat} (hi : i < order.length) {m : Model K} {row : List Int}
    (h : InSlice f order t a m row i) :
    ∃ m' row', drawVariable order r i (m, row) = ok (m', row') ∧ Model.Keeps f.net m m' ∧ InSlice f order t a m' row' (i + 1) ∧
      (∀ j, j ≠ i → row'[j]? = row[j]?) ∧ DrawnWell f order past t r row' i := by
  obtain ⟨w, h1, h2⟩ := h.carries
  have hv : order[i] ∈ f.net.vars := hsub _ (List.getElem_mem hi)
  obtain ⟨m1, c1, c2, c3, c4⟩ := h1.consistent
  obtain ⟨m2, p1, p2, p3⟩ := c3.probability c4 hv
  obtain ⟨T, hT⟩ : ∃ T, T = fun x => before f t a x * sight f.net (vision f.card (known order row i)) x := ⟨_, rfl⟩
  rw [← hT] at p1 p3
  have hTn : ∀ x, 0 ≤ T x := by
    intro x
    rw [hT]
    refine mul_nonneg (before_nonneg hf ha.nonneg x) ?_
    refine list_prod_nonneg ?_
    intro b hb
    obtain ⟨v, hv, rfl⟩ := List.mem_map.mp hb
    exact getD_nonneg (vision_nonneg _ _ _) _
  obtain ⟨p, hp⟩ : ∃ p, p = if (sums f.net T order[i]).sum = 0 then sums f.net T order[i]
    else (sums f.net T order[i]).map (· / (sums f.net T order[i]).sum) := ⟨_, rfl⟩
  rw [← hp] at p1
  have hlen : p.length = f.card order[i] := by
    rw [hp]
    split
    · unfold sums; rw [List.length_map, List.length_range]; rfl
    · unfold sums; rw [List.length_map, List.length_map, List.length_range]; rfl
  have hpos : 0 < f.card order[i] := hf.states _ hv
  obtain ⟨k, b, l1, l2, l3⟩ := lottery_spec (p := p) (by intro e; rw [e] at hlen; simp at hlen; omega) (r i)
  have hcard : (m2.var order[i]).card = p.length := by rw [hlen]; exact p3.sound.card _
  have hev : w.evidence order[i] = List.replicate (f.net.card order[i]) 1 := by
    rw [h2]; exact vision_known_next f.card hn row hi
  obtain ⟨m3, e1, e2, e3⟩ := Model.Carries.see (T := before f t a) (net_local hf) hv k (m := m2) (w := w)
    (by rw [h2]; rw [hT] at p3; exact p3) hev
  have hir : i < row.length := by rw [h.length]; exact hi
  refine ⟨m3, row.set i (k : Int), ?_, c2.trans (p2.trans e2), ⟨⟨{ w with evidence := Function.update w.evidence order[i] (indicator (f.net.card order[i]) (k : Int)) }, ?_, ?_⟩,
    by simpa using h.length⟩, ?_, ?_⟩
  · unfold drawVariable
    simp only
    rw [c1, ok_bind, rd_lt hi, ok_bind, p1, ok_bind]
    simp only
    rw [hcard, l1, ok_bind]
    simp only
    rw [wr_lt hir, ok_bind, e1, ok_bind]
  · have hk : known order (row.set i (k : Int)) i = known order row i :=
      known_congr fun j hj => by rw [List.getElem?_set_ne (by omega)]
    have := vision_known_succ (K := K) f.card hn (row := row.set i (k : Int)) hi (k := k) (by simp [hir])
    rw [this, hk, ← h2]
    exact e3
  · have hk : known order (row.set i (k : Int)) i = known order row i :=
      known_congr fun j hj => by rw [List.getElem?_set_ne (by omega)]
    have := vision_known_succ (K := K) f.card hn (row := row.set i (k : Int)) hi (k := k) (by simp [hir])
    rw [this, hk, ← h2]
    rfl
  · intro j hj
    rw [List.getElem?_set_ne (Ne.symm hj)]
  · intro v hov
    rw [List.getElem?_eq_getElem hi] at hov
    cases hov
    refine ⟨k, by simp [hir], by rw [← hlen]; exact l2, ?_⟩
    intro hr seen hs hst htot
    have hk : known order (row.set i (k : Int)) i = known order row i :=
      known_congr fun j hj => by rw [List.getElem?_set_ne (by omega)]
    rw [hk] at hst
    obtain ⟨d, d1, d2⟩ := (ha.congr (seen' := seen) (fun s hs' => (hs s hs').symm)).value (fun _ => total_prefix hf _ htot)
    have hTx : ∀ x, Legal f.card f.vars x → T x = d * (slice f seen t x * fwd f seen t x * bwd f seen 0 t x) := by
      intro x hx
      have : T x = within f seen t a x := by rw [hT]; unfold within; rw [hst]
      rw [this, within_legal hf htm seen t a hx, d2 x hx]
      simp only [bwd]
      ring
    have hnorm := normalised hf (k := 0) (show order[i] ∈ f.vars from hv) d1 hTx
    have hsum : (sums f.net T order[i]).sum = d * total f seen (t + 1) := by
      rw [sums_sum (net_local hf).nodup hv, total_succ, ← sumOver_const_mul]
      refine sumOver_legal (U := f.vars) (fun z hz => ?_) _ _ (fun v hv hv' => absurd hv hv')
      rw [hTx z hz]
      simp [bwd]
    have hne : (sums f.net T order[i]).sum ≠ 0 := by rw [hsum]; exact mul_ne_zero d1.ne' htot
    rw [← hp] at hnorm
    rw [show t + 1 = t + 1 + 0 from rfl, ← hnorm]
    refine l3 ?_ hr
    rw [hp, if_neg hne]
    exact quotients_distribution (sums_nonneg hTn _) hne

/-- all values of one slice -/
theorem drawSlice_spec {f : NetFile K} (hf : f.Valid) (htm : f.Temporal) {order : List Nat} (hn : order.Nodup) (hsub : ∀ v ∈ order, v ∈ f.vars)
    {past : Nat → Nat → Int} {t : Nat} {a : Potential K} (ha : Alpha f past t a) (r : Nat → K) {m : Model K} {row : List Int} (hrow : row.length = order.length)
    (h : Model.Carries f.net m (slateOf f.net (decide (0 < t))) (before f t a)) :
    ∃ m' row', loop order.length (drawVariable order r) (m, row) = ok (m', row') ∧ Model.Keeps f.net m m' ∧ InSlice f order t a m' row' order.length ∧
      ∀ i, i < order.length → DrawnWell f order past t r row' i := by
  obtain ⟨⟨m', row'⟩, e1, e2, e3, e4⟩ := loop_inv (n := order.length) (s := (m, row)) (f := drawVariable order r)
    (fun i (st : Model K × List Int) => Model.Keeps f.net m st.1 ∧ InSlice f order t a st.1 st.2 i ∧ ∀ j, j < i → DrawnWell f order past t r st.2 j)
    (by
      refine ⟨Model.Keeps.refl _ _, ⟨⟨slateOf f.net (decide (0 < t)), ?_, ?_⟩, hrow⟩, by omega⟩
      · refine h.congr fun x => ?_
        rw [known_zero]
        unfold sight
        rw [List.prod_eq_one, mul_one]
        intro b hb
        obtain ⟨v, hv, rfl⟩ := List.mem_map.mp hb
        rw [vision_unseen (by decide)]
        exact getD_ones (Nat.mod_lt _ (hf.states v hv))
      · rw [slate_evidence, known_zero]
        funext v
        rw [vision_unseen (by decide)]
        rfl)
    (by
      rintro i hi ⟨m1, row1⟩ ⟨k1, k2, k3⟩
      obtain ⟨m2, row2, g1, g2, g3, g4, g5⟩ := drawVariable_spec hf htm hn hsub ha r hi k2
      refine ⟨(m2, row2), g1, k1.trans g2, g3, ?_⟩
      intro j hj
      rcases Nat.lt_or_ge j i with h' | h'
      · exact (k3 j h').congr fun l hl => (g4 l (by omega)).symm
      · have : j = i := by omega
        subst this
        exact g5)
  exact ⟨m', row', e1, e2, e3, e4⟩

/-! ### all time steps -/

/-- the data of the first time steps have been drawn as they should -/
def RowsDrawn (f : NetFile K) (order : List Nat) (r : Nat → Nat → K) (data : List (List Int)) (t : Nat) : Prop :=
  ∀ t', t' < t → ∃ row, data[t']? = some row ∧ row.length = order.length ∧
    ∀ i, i < order.length → DrawnWell f order (drawnBefore order data t' 0) t' (r t') row i

theorem drawnBefore_congr {order : List Nat} {data data' : List (List Int)} {t : Nat} (h : ∀ s, s < t → data[s]? = data'[s]?) (i i' : Nat) {s : Nat} (hs : s < t) :
    drawnBefore order data t i s = drawnBefore order data' t i' s := by
  funext v
  unfold drawnBefore
  rw [if_pos hs, if_pos hs, List.getD_eq_getElem?_getD, List.getD_eq_getElem?_getD, h s hs]

/-- the variables of the loop over time steps -/
structure AtStep (f : NetFile K) (s : Interface) (order : List Nat) (r : Nat → Nat → K) (length t : Nat) (st : Generator K) : Prop where
  holds : Model.Holds f.net st.model (slateOf f.net (decide (0 < t)))
  face : InterfaceOk f.net st.model s
  alpha : Alpha f (drawnBefore order st.data t 0) t st.alpha
  length : st.data.length = length
  rows : ∀ row ∈ st.data, row.length = order.length
  drawn : RowsDrawn f order r st.data t

theorem DrawnWell.past {f : NetFile K} {order : List Nat} {past past' : Nat → Nat → Int} {t : Nat} {r : Nat → K} {row : List Int} {i : Nat}
    (h : DrawnWell f order past t r row i) (e : ∀ s, s < t → past s = past' s) : DrawnWell f order past' t r row i := by
  intro v hv
  obtain ⟨k, h1, h2, h3⟩ := h v hv
  exact ⟨k, h1, h2, fun hr seen hs ht => h3 hr seen (fun s hs' => by rw [hs s hs', e s hs']) ht⟩

theorem generateStep_spec {f : NetFile K} (hf : f.Valid) (htm : f.Temporal) {s : Interface} (hs : IsInterface f s) {order : List Nat} (hn : order.Nodup)
    (hsub : ∀ v ∈ order, v ∈ f.vars) (r : Nat → Nat → K) {length t : Nat} (ht : t < length) {st : Generator K} (h : AtStep f s order r length t st) :
    ∃ st', generateStep s order r t st = ok st' ∧ Model.Same st.model st'.model ∧ AtStep f s order r length (t + 1) st' := by
  have hat : TableOn f.card s.out st.alpha := by rw [hs.out]; exact h.alpha.table
  have htl : t < st.data.length := by rw [h.length]; exact ht
  obtain ⟨m1, a1, a2, a3⟩ := arrive hs h.holds h.face hat h.alpha.nonneg
  obtain ⟨m2, row, b1, b2, b3, b4⟩ := drawSlice_spec hf htm hn hsub h.alpha (r t) (row := st.data[t]) (h.rows _ (List.getElem_mem htl)) a3
  obtain ⟨w, c1, c2⟩ := b3.carries
  obtain ⟨m3, d1, d2, d3, d4⟩ := c1.consistent
  obtain ⟨data, hdata⟩ : ∃ data, data = st.data.set t row := ⟨_, rfl⟩
  have hpre : ∀ s', s' < t → st.data[s']? = data[s']? := fun s' hs' => by rw [hdata, List.getElem?_set_ne (by omega)]
  have hat' : data[t]? = some row := by rw [hdata]; simp [htl]
  have ha' : Alpha f (drawnBefore order data (t + 1) 0) t st.alpha := h.alpha.congr (by
    intro s' hs'
    rw [drawnBefore_congr hpre 0 0 hs']
    funext v
    unfold drawnBefore
    rw [if_pos hs', if_pos (by omega)])
  have hw : within f (drawnBefore order data (t + 1) 0) t st.alpha =
      fun x => before f t st.alpha x * sight f.net (vision f.card (known order row order.length)) x := by
    have : drawnBefore order data (t + 1) 0 t = known order row order.length := by
      funext v
      unfold drawnBefore
      rw [if_pos (by omega), List.getD_eq_getElem?_getD, hat']
      rfl
    unfold within
    rw [this]
  have hi3 : InterfaceOk f.net m3 s := h.face.keep ((a2.trans (b2.trans d2)).1.skel)
  obtain ⟨a', e1, e2⟩ := depart hf htm hs ha' hat (by rw [hw]; exact d3) d4 hi3
  obtain ⟨m4, m5, g1, g2, g3, g4⟩ := d3.prepare true
  refine ⟨{ model := m5, alpha := a', data := data }, ?_, (a2.trans (b2.trans d2)).1.trans g3, ⟨?_, hi3.keep g3.skel, e2, by rw [hdata]; simpa using h.length, ?_, ?_⟩⟩
  · unfold generateStep
    rw [a1, ok_bind, rd_lt htl, ok_bind, b1, ok_bind]
    simp only
    rw [wr_lt htl, ok_bind, d1, ok_bind, e1, ok_bind, g1, ok_bind, g2, ok_bind, hdata]
  · rw [show decide (0 < t + 1) = true from decide_eq_true (Nat.succ_pos t)]
    exact g4
  · intro row' hr'
    rw [hdata] at hr'
    rcases List.mem_or_eq_of_mem_set hr' with h' | h'
    · exact h.rows _ h'
    · rw [h']; exact b3.length
  · intro t' ht'
    rcases Nat.lt_or_ge t' t with h' | h'
    · obtain ⟨row', r1, r2, r3⟩ := h.drawn t' h'
      refine ⟨row', by rw [← hpre t' h']; exact r1, r2, fun i hi => (r3 i hi).past ?_⟩
      intro s' hs'
      exact drawnBefore_congr (fun s'' hs'' => hpre s'' (by omega)) 0 0 hs'
    · have : t' = t := by omega
      subst this
      exact ⟨row, hat', b3.length, fun i hi => (b4 i hi).past fun s' hs' => drawnBefore_congr hpre 0 0 hs'⟩

/-- the whole run -/
theorem generate_loop {f : NetFile K} (hf : f.Valid) (htm : f.Temporal) {s : Interface} (hs : IsInterface f s) {order : List Nat} (hn : order.Nodup)
    (hsub : ∀ v ∈ order, v ∈ f.vars) (r : Nat → Nat → K) (length : Nat) {m : Model K} {w : World K} (h : Model.Holds f.net m w) (hi : InterfaceOk f.net m s) :
    ∃ a m1 m2 st, newMessage s m = ok a ∧ m.reset = ok m1 ∧ m1.usePriors false = ok m2 ∧ m2.varList = m.varList ∧
      loop length (generateStep s order r) { model := m2, alpha := a, data := List.replicate length (List.replicate order.length 0) } = ok st ∧
      AtStep f s order r length length st ∧ Model.Same m st.model := by
  obtain ⟨a, n1, n2⟩ := newMessage_spec hf htm hs h.sound.card (drawnBefore order (List.replicate length (List.replicate order.length 0)) 0 0)
  obtain ⟨m1, m2, p1, p2, p3, p4⟩ := h.carries.prepare false
  obtain ⟨st, e1, e2⟩ := loop_inv (n := length) (f := generateStep s order r)
    (s := ({ model := m2, alpha := a, data := List.replicate length (List.replicate order.length 0) } : Generator K))
    (fun t st => AtStep f s order r length t st ∧ Model.Same m st.model)
    ⟨⟨p4, hi.keep p3.skel, n2, by simp, fun row hrow => by rw [(List.mem_replicate.mp hrow).2]; simp, fun t' ht' => absurd ht' (Nat.not_lt_zero _)⟩, p3⟩
    (by
      rintro t ht st ⟨hst, hsame⟩
      obtain ⟨st', g1, g2, g3⟩ := generateStep_spec hf htm hs hn hsub r ht hst
      exact ⟨st', g1, g3, hsame.trans g2⟩)
  exact ⟨a, m1, m2, st, n1, p1, p2, p3.varList, e1, e2⟩

end Nip
