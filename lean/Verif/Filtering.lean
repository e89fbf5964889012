import Verif.DynamicLemmas

/-! # Forward inference -/

namespace Nip

open Res Spec Model

set_option linter.unusedSectionVars false

variable {K : Type} [Field K] [LinearOrder K] [IsStrictOrderedRing K]

theorem sumOver_mono {card : Nat → Nat} {vs : List Nat} {f g : Asg → K} (h : ∀ z, f z ≤ g z) (x : Asg) : sumOver card vs f x ≤ sumOver card vs g x := by
  induction vs generalizing x with
  | nil => exact h x
  | cons v vs ih => exact Finset.sum_le_sum fun i _ => ih _

theorem list_prod_nonneg {l : List K} (h : ∀ a ∈ l, 0 ≤ a) : 0 ≤ l.prod := by
  induction l with
  | nil => exact zero_le_one
  | cons a l ih => rw [List.prod_cons]; exact mul_nonneg (h a (List.mem_cons_self ..)) (ih fun b hb => h b (List.mem_cons_of_mem _ hb))

theorem getD_nonneg {l : List K} (h : ∀ a ∈ l, 0 ≤ a) (i : Nat) : 0 ≤ l.getD i 0 := by
  rw [List.getD_eq_getElem?_getD]
  cases e : l[i]? with
  | none => simp
  | some a => exact h a (List.mem_of_getElem? e)

theorem sem_nonneg {p : Potential K} (h : ∀ a ∈ p.data, 0 ≤ a) (card : Nat → Nat) (us : List Nat) (x : Asg) : 0 ≤ sem card us p x := by
  unfold sem Potential.at' cellOf
  exact getD_nonneg h _

theorem prior_nonneg {f : NetFile K} (hf : f.Valid) (v : Nat) : ∀ a ∈ f.net.prior v, 0 ≤ a := by
  intro a ha
  change a ∈ (match f.pots.find? (fun q => decide (q.child = v)) with
    | some q => q.table.data
    | none => List.replicate (f.card v) 0) at ha
  split at ha
  · rename_i q hq
    exact hf.nonneg q (List.mem_of_find?_eq_some hq) a ha
  · rw [(List.mem_replicate.mp ha).2]

theorem slice_nonneg {f : NetFile K} (hf : f.Valid) (seen : Nat → Nat → Int) (s : Nat) (x : Asg) : 0 ≤ slice f seen s x := by
  unfold slice NetFile.sliceWeight weightOf
  refine mul_nonneg (mul_nonneg ?_ ?_) ?_
  · refine list_prod_nonneg ?_
    intro a ha
    obtain ⟨q, hq, rfl⟩ := List.mem_map.mp ha
    exact getD_nonneg (hf.nonneg q (List.mem_filter.mp hq).1) _
  · refine list_prod_nonneg ?_
    intro a ha
    obtain ⟨v, hv, rfl⟩ := List.mem_map.mp ha
    simp only
    split
    · exact getD_nonneg (prior_nonneg hf v) _
    · exact zero_le_one
  · refine list_prod_nonneg ?_
    intro a ha
    obtain ⟨v, hv, rfl⟩ := List.mem_map.mp ha
    exact getD_nonneg (vision_nonneg _ _ _) _

theorem fwd_nonneg {f : NetFile K} (hf : f.Valid) (seen : Nat → Nat → Int) (t : Nat) (x : Asg) : 0 ≤ fwd f seen t x := by
  induction t generalizing x with
  | zero => exact zero_le_one
  | succ t ih =>
    rw [fwd]
    refine sumOver_nonneg (fun z => ?_) _
    split
    · exact mul_nonneg (slice_nonneg hf seen t z) (ih z)
    · exact le_refl _

theorem bwd_nonneg {f : NetFile K} (hf : f.Valid) (seen : Nat → Nat → Int) (k t : Nat) (x : Asg) : 0 ≤ bwd f seen k t x := by
  induction k generalizing t x with
  | zero => exact zero_le_one
  | succ k ih =>
    rw [bwd]
    refine sumOver_nonneg (fun z => ?_) _
    split
    · exact mul_nonneg (slice_nonneg hf seen _ z) (ih _ z)
    · exact le_refl _

/-- total weight of the first slices -/
noncomputable def total (f : NetFile K) (seen : Nat → Nat → Int) (n : Nat) : K := f.unrolledTotal seen n (fun _ => True)

theorem total_zero (f : NetFile K) (seen : Nat → Nat → Int) : total f seen 0 = 1 := by
  simp [total, NetFile.unrolledTotal, sumSlices, NetFile.unrolledWeight]

theorem total_at (f : NetFile K) (seen : Nat → Nat → Int) (t k : Nat) :
    total f seen (t + 1 + k) = sumOver f.card f.vars (fun x => slice f seen t x * fwd f seen t x * bwd f seen k t x) (fun _ => 0) := by
  unfold total
  have := unrolledTotal_eq f seen t k (fun _ => True)
  simpa using this

theorem total_succ (f : NetFile K) (seen : Nat → Nat → Int) (t : Nat) :
    total f seen (t + 1) = sumOver f.card f.vars (fun x => slice f seen t x * fwd f seen t x) (fun _ => 0) := by
  have := total_at f seen t 0
  simpa [bwd] using this

theorem total_nonneg {f : NetFile K} (hf : f.Valid) (seen : Nat → Nat → Int) (t : Nat) : 0 ≤ total f seen t := by
  cases t with
  | zero => rw [total_zero]; exact zero_le_one
  | succ t =>
    rw [total_succ]
    exact sumOver_nonneg (fun z => mul_nonneg (slice_nonneg hf seen t z) (fwd_nonneg hf seen t z)) _

theorem fwd_le_total {f : NetFile K} (hf : f.Valid) (seen : Nat → Nat → Int) (t : Nat) (x : Asg) : fwd f seen t x ≤ total f seen t := by
  cases t with
  | zero => rw [total_zero]; exact le_refl _
  | succ t =>
    rw [total_succ, fwd]
    refine sumOver_mono (fun z => ?_) _
    split
    · exact le_refl _
    · exact mul_nonneg (slice_nonneg hf seen t z) (fwd_nonneg hf seen t z)

/-- what is impossible stays impossible -/
theorem total_prefix {f : NetFile K} (hf : f.Valid) (seen : Nat → Nat → Int) {t : Nat} (h : total f seen (t + 1) ≠ 0) : total f seen t ≠ 0 := by
  intro h0
  refine h ?_
  rw [total_succ]
  refine sumOver_eq_zero fun z _ => ?_
  have h1 := fwd_le_total hf seen t z
  rw [h0] at h1
  rw [le_antisymm h1 (fwd_nonneg hf seen t z), mul_zero]

theorem total_prefix_le {f : NetFile K} (hf : f.Valid) (seen : Nat → Nat → Int) {t n : Nat} (hle : t ≤ n) (h : total f seen n ≠ 0) : total f seen t ≠ 0 := by
  induction n, hle using Nat.le_induction with
  | base => exact h
  | succ n _ ih => exact ih (total_prefix hf seen h)

/-- what is told at the beginning of a slice -/
noncomputable def slateOf (net : Net K) (hist : Bool) : World K := (World.fresh net).step net (.priors hist)

theorem slate_evidence (net : Net K) (hist : Bool) : (slateOf net hist).evidence = fun v => List.replicate (net.card v) 1 := rfl

theorem slate_weight {f : NetFile K} (hf : f.Valid) (ht : f.Temporal) (hist : Bool) (seen : Nat → Int) {x : Asg} (hx : Legal f.card f.vars x) :
    repd f.net (slateOf f.net hist) x * sight f.net (vision f.card seen) x = f.sliceWeight (hist = false) seen x := by
  classical
  rw [repd_legal (net_local hf) _ hx]
  unfold jointWeight NetFile.sliceWeight weightOf sight
  have h1 : (f.net.vars.map (fun v => ((slateOf f.net hist).evidence v).getD (x v) 0)).prod = 1 := by
    refine List.prod_eq_one ?_
    intro a ha
    obtain ⟨v, hv, rfl⟩ := List.mem_map.mp ha
    rw [slate_evidence]
    exact getD_ones (hx v hv)
  have h2 : (f.net.vars.map (fun v => (vision (K := K) f.card seen v).getD (x v % f.net.card v) 0)) =
      (f.net.vars.map (fun v => (vision f.card seen v).getD (x v) 0)) := by
    apply List.map_congr_left
    intro v hv
    rw [show x v % f.net.card v = x v from Nat.mod_eq_of_lt (hx v hv)]
  rw [h1, h2, mul_one]
  congr 3
  apply List.map_congr_left
  intro v hv
  have hv' : v ∈ f.vars := (List.mem_filter.mp hv).1
  have hp : (slateOf f.net hist).present v = true ↔ (hist = false ∨ f.next v = none) ∧ Usable (f.net.card v) (f.net.prior v) := by
    show (false || decide _) = true ↔ _
    rw [Bool.false_or, decide_eq_true_eq]
    have ho := oldOut_iff ht hv'
    constructor
    · rintro ⟨_, _, h3, h4⟩
      refine ⟨?_, h4⟩
      cases hist
      · exact Or.inl rfl
      · right
        rw [h3 rfl] at ho
        simpa using ho.symm
    · rintro ⟨h3, h4⟩
      refine ⟨hv, rfl, ?_, h4⟩
      rintro rfl
      rcases h3 with h3 | h3
      · cases h3
      · rw [ho, h3]; rfl
  by_cases h : (slateOf f.net hist).present v = true
  · rw [if_pos h, if_pos (hp.mp h)]
  · rw [if_neg h, if_neg (fun h' => h (hp.mpr h'))]

namespace Model

/-- the model made ready for a slice -/
theorem Carries.prepare {net : Net K} {m : Model K} {w : World K} {T : Asg → K} (h : Carries net m w T) (hist : Bool) :
    ∃ m1 m2, m.reset = ok m1 ∧ m1.usePriors hist = ok m2 ∧ Same m m2 ∧ Holds net m2 (slateOf net hist) := by
  obtain ⟨r1, r2, r3⟩ := reset_spec h.sound (fun v hv => by rw [(h.told.lik v hv).1]; exact (h.told.lik v hv).2.1)
  obtain ⟨m2, u1, u2, u3⟩ := usePriors_spec r3 hist
  exact ⟨_, m2, r1, u1, r2.trans u2.1, u3⟩

end Model

/-- the arrays of the interface are those of the file -/
structure IsInterface (f : NetFile K) (s : Interface) : Prop where
  prev : s.prev = NetFile.olds f
  out : s.out = (NetFile.olds f).map (NetFile.succ f)

/-- the assignment to a slice that goes with the assignment `x` to the slice after it, as far as the interface goes -/
def pull (f : NetFile K) (x : Asg) (u : Nat) : Nat :=
  match (NetFile.olds f).find? (fun v => NetFile.succ f v == u) with
  | some v => x v
  | none => 0

theorem pull_succ {f : NetFile K} (hf : f.Valid) (ht : f.Temporal) (x : Asg) {v : Nat} (hv : v ∈ NetFile.olds f) : pull f x (NetFile.succ f v) = x v := by
  unfold pull
  cases h : (NetFile.olds f).find? (fun w => NetFile.succ f w == NetFile.succ f v) with
  | none => exact absurd (List.find?_eq_none.mp h v hv) (by simp)
  | some w =>
    have hw := List.mem_of_find?_eq_some h
    have he := List.find?_some h
    simp only [beq_iff_eq] at he
    simp only
    rw [List.inj_on_of_nodup_map (succ_nodup hf ht) hw hv he]

theorem pull_other {f : NetFile K} (x : Asg) {u : Nat} (hu : u ∉ (NetFile.olds f).map (NetFile.succ f)) : pull f x u = 0 := by
  unfold pull
  cases h : (NetFile.olds f).find? (fun w => NetFile.succ f w == u) with
  | none => rfl
  | some w =>
    have hw := List.mem_of_find?_eq_some h
    have he := List.find?_some h
    simp only [beq_iff_eq] at he
    exact absurd (List.mem_map.mpr ⟨w, hw, he⟩) hu

theorem pull_linked {f : NetFile K} (hf : f.Valid) (ht : f.Temporal) (z x : Asg) :
    (∀ u ∈ (NetFile.olds f).map (NetFile.succ f), z u = pull f x u) ↔ f.Linked z x := by
  unfold NetFile.Linked
  constructor
  · intro h v hv u hu
    have hu' : f.next v = some u := hu
    have hvo := mem_olds.mpr ⟨hv, u, hu'⟩
    have hs : NetFile.succ f v = u := by unfold NetFile.succ; rw [hu']; rfl
    have := h u (List.mem_map.mpr ⟨v, hvo, hs⟩)
    rw [this, ← hs, pull_succ hf ht x hvo]
  · intro h u hu
    obtain ⟨v, hv, rfl⟩ := List.mem_map.mp hu
    rw [pull_succ hf ht x hv]
    obtain ⟨hv', u, hu'⟩ := mem_olds.mp hv
    have := h v hv' u hu'
    unfold NetFile.succ
    rw [hu', this]; rfl

theorem pull_legal {f : NetFile K} (hf : f.Valid) (ht : f.Temporal) {x : Asg} (hx : Legal f.card f.vars x) :
    ∀ u ∈ (NetFile.olds f).map (NetFile.succ f), pull f x u < f.card u := by
  intro u hu
  obtain ⟨v, hv, rfl⟩ := List.mem_map.mp hu
  rw [pull_succ hf ht x hv]
  obtain ⟨hv', u, hu'⟩ := mem_olds.mp hv
  unfold NetFile.succ
  rw [hu']
  simp only [Option.getD_some]
  rw [(ht.states v hv' u hu').2]
  exact hx v hv'

theorem pull_states {f : NetFile K} (hf : f.Valid) (ht : f.Temporal) (x : Asg) :
    states f.card ((NetFile.olds f).map (NetFile.succ f)) (pull f x) = states f.card (NetFile.olds f) x := by
  unfold states
  rw [List.map_map]
  apply List.map_congr_left
  intro v hv
  simp only [Function.comp]
  rw [pull_succ hf ht x hv]
  obtain ⟨hv', u, hu'⟩ := mem_olds.mp hv
  unfold NetFile.succ
  rw [hu']
  simp only [Option.getD_some]
  rw [(ht.states v hv' u hu').2]

/-- the factor brought by a message from the slice before -/
def arrival (f : NetFile K) (t : Nat) (a : Potential K) (x : Asg) : K := if t = 0 ∨ NetFile.olds f = [] then 1 else sem f.card (NetFile.olds f) a x

/-- a message that arrives at slice `t` -/
structure Alpha (f : NetFile K) (seen : Nat → Nat → Int) (t : Nat) (a : Potential K) : Prop where
  table : TableOn f.card ((NetFile.olds f).map (NetFile.succ f)) a
  nonneg : ∀ b ∈ a.data, 0 ≤ b
  value : (NetFile.olds f = [] → total f seen t ≠ 0) → ∃ c, 0 < c ∧ ∀ x, Legal f.card f.vars x → arrival f t a x = c * fwd f seen t x

theorem arrival_nonneg {f : NetFile K} {t : Nat} {a : Potential K} (h : ∀ b ∈ a.data, 0 ≤ b) (x : Asg) : 0 ≤ arrival f t a x := by
  unfold arrival
  split
  · exact zero_le_one
  · exact sem_nonneg h _ _ _

/-- the function represented by the tables of slice `t` before data are entered -/
noncomputable def before (f : NetFile K) (t : Nat) (a : Potential K) (x : Asg) : K := repd f.net (slateOf f.net (decide (0 < t))) x * arrival f t a x

/-- the function represented by the tables of slice `t` -/
noncomputable def within (f : NetFile K) (seen : Nat → Nat → Int) (t : Nat) (a : Potential K) (x : Asg) : K :=
  before f t a x * sight f.net (vision f.card (seen t)) x

theorem within_legal {f : NetFile K} (hf : f.Valid) (ht : f.Temporal) (seen : Nat → Nat → Int) (t : Nat) (a : Potential K) {x : Asg} (hx : Legal f.card f.vars x) :
    within f seen t a x = slice f seen t x * arrival f t a x := by
  unfold within before slice
  rw [mul_right_comm, slate_weight hf ht _ (seen t) hx]
  have : (decide (0 < t) = false) = (t = 0) := by
    rw [decide_eq_false_iff_not]; simp
  simp only [this]

theorem repd_nonneg {f : NetFile K} (hf : f.Valid) {w : World K} (hw : ∀ v ∈ f.vars, ∀ a ∈ w.evidence v, 0 ≤ a) (x : Asg) : 0 ≤ repd f.net w x := by
  unfold repd jointWeight
  refine mul_nonneg (mul_nonneg ?_ ?_) ?_
  · refine list_prod_nonneg ?_
    intro a ha
    obtain ⟨q, hq, rfl⟩ := List.mem_map.mp ha
    exact getD_nonneg (hf.nonneg q (List.mem_filter.mp hq).1) _
  · refine list_prod_nonneg ?_
    intro a ha
    obtain ⟨v, hv, rfl⟩ := List.mem_map.mp ha
    split
    · exact getD_nonneg (prior_nonneg hf v) _
    · exact zero_le_one
  · refine list_prod_nonneg ?_
    intro a ha
    obtain ⟨v, hv, rfl⟩ := List.mem_map.mp ha
    exact getD_nonneg (hw v hv) _

theorem before_nonneg {f : NetFile K} (hf : f.Valid) {t : Nat} {a : Potential K} (h : ∀ b ∈ a.data, 0 ≤ b) (x : Asg) : 0 ≤ before f t a x := by
  refine mul_nonneg (repd_nonneg hf ?_ x) (arrival_nonneg h x)
  intro v _ a ha
  rw [slate_evidence] at ha
  rw [(List.mem_replicate.mp ha).2]; exact zero_le_one

theorem within_nonneg {f : NetFile K} (hf : f.Valid) (seen : Nat → Nat → Int) {t : Nat} {a : Potential K} (h : ∀ b ∈ a.data, 0 ≤ b) (x : Asg) :
    0 ≤ within f seen t a x := by
  refine mul_nonneg (before_nonneg hf h x) ?_
  refine list_prod_nonneg ?_
  intro b hb
  obtain ⟨v, hv, rfl⟩ := List.mem_map.mp hb
  exact getD_nonneg (vision_nonneg _ _ _) _

/-- the message from the slice before is multiplied in -/
theorem arrive {f : NetFile K} {s : Interface} (hs : IsInterface f s) {m : Model K} {t : Nat}
    (h : Model.Holds f.net m (slateOf f.net (decide (0 < t)))) (hi : InterfaceOk f.net m s) {a : Potential K}
    (ha : TableOn f.card s.out a) (hn : ∀ b ∈ a.data, 0 ≤ b) :
    ∃ m', arriveForward s t m a = ok m' ∧ Model.Keeps f.net m m' ∧
      Model.Carries f.net m' (slateOf f.net (decide (0 < t))) (before f t a) := by
  unfold arriveForward
  by_cases h0 : 0 < t
  · obtain ⟨m', g1, g2, g3⟩ := h.carries.finish hi true (num := a) (den := none) ha (by simp) (fun x => sem_nonneg hn _ _ _) (by simp)
    refine ⟨m', by rw [if_pos h0]; exact g1, g2, g3.congr fun x => ?_⟩
    unfold before arrival
    congr 1
    have hne : s.out = [] ↔ NetFile.olds f = [] := by rw [hs.out, List.map_eq_nil_iff]
    have ht0 : ¬ t = 0 := by omega
    simp only [hne, ht0, false_or]
    split
    · rfl
    · unfold Model.ratio Interface.side
      simp only [if_true, hs.prev]
      rfl
  · refine ⟨m, by rw [if_neg h0], Model.Keeps.refl _ m, h.carries.congr fun x => ?_⟩
    unfold before arrival
    rw [if_pos (Or.inl (by omega)), mul_one]

/-- the message to the slice after -/
theorem depart {f : NetFile K} (hf : f.Valid) (htm : f.Temporal) {s : Interface} (hs : IsInterface f s) {m : Model K} {w : World K} {seen : Nat → Nat → Int} {t : Nat}
    {a b : Potential K} (ha : Alpha f seen t a) (hb : TableOn f.card s.out b)
    (h : Model.Carries f.net m w (within f seen t a)) (hag : m.tree.Agrees f.net.card (m.tree.st f.net.card)) (hi : InterfaceOk f.net m s) :
    ∃ a', startPass s true m b = ok a' ∧ Alpha f seen (t + 1) a' := by
  classical
  obtain ⟨a', g1, g2, g3, g4⟩ := h.start hag hi true hb (within_nonneg hf seen ha.nonneg)
  refine ⟨a', g1, by rw [← hs.out]; exact g2, ?_, ?_⟩
  · by_cases hne : s.out = []
    · rw [hne] at g2
      exact sem_data_nonneg List.nodup_nil g2 (fun x => by rw [g3 hne]; exact zero_le_one)
    · obtain ⟨c, c1, c2⟩ := g4 hne
      refine sem_data_nonneg (us := s.side !true) hi.out.1 g2 (fun x => ?_)
      refine le_of_le_of_eq (mul_nonneg c1.le (sumOver_nonneg (within_nonneg hf seen ha.nonneg) _)) (c2 x).symm
  · intro htot
    obtain ⟨d, d1, d2⟩ := ha.value (fun h => total_prefix hf seen (htot h))
    have hw : ∀ x, Legal f.card f.vars x → within f seen t a x = d * (slice f seen t x * fwd f seen t x) := by
      intro x hx
      rw [within_legal hf htm seen t a hx, d2 x hx]; ring
    by_cases hne : NetFile.olds f = []
    · have hpos : 0 < total f seen (t + 1) := lt_of_le_of_ne (total_nonneg hf seen _) (Ne.symm (htot hne))
      refine ⟨(total f seen (t + 1))⁻¹, inv_pos.mpr hpos, fun x _ => ?_⟩
      have : fwd f seen (t + 1) x = total f seen (t + 1) := by
        rw [fwd, total_succ]
        refine sumOver_congr' fun z => ?_
        rw [if_pos]
        rw [← pull_linked hf htm, hne]
        simp
      rw [this, inv_mul_cancel₀ (htot hne)]
      unfold arrival
      rw [if_pos (Or.inr hne)]
    · obtain ⟨c, c1, c2⟩ := g4 (by rw [hs.out]; simpa using hne)
      refine ⟨c * d, mul_pos c1 d1, fun x hx => ?_⟩
      unfold arrival
      rw [if_neg (by simp [hne])]
      have e1 : sem f.card (NetFile.olds f) a' x = sem f.card ((NetFile.olds f).map (NetFile.succ f)) a' (pull f x) := by
        unfold sem; rw [pull_states hf htm]
      have c3 := c2 (pull f x)
      have hside : s.side (!true) = (NetFile.olds f).map (NetFile.succ f) := hs.out
      rw [hside] at c3
      rw [e1]
      refine c3.trans ?_
      rw [mul_assoc]
      congr 1
      have hnd : f.vars.Nodup := hf.sorted.imp ne_of_lt
      have hsub : ∀ u ∈ (NetFile.olds f).map (NetFile.succ f), u ∈ f.vars := fun u hu => succ_mem htm hu
      refine (sumOver_fix hnd (succ_nodup hf htm) hsub (pull_legal hf htm hx) (fun u hu => pull_other x hu) _).trans ?_
      rw [fwd, ← sumOver_const_mul]
      refine sumOver_legal (U := f.vars) (fun z hz => ?_) _ _ (fun v hv hv' => absurd hv hv')
      by_cases hl : f.Linked z x
      · rw [if_pos ((pull_linked hf htm z x).mpr hl), if_pos hl, hw z hz]
      · rw [if_neg (fun h => hl ((pull_linked hf htm z x).mp h)), if_neg hl, mul_zero]

open Classical in
/-- the sums for the states of a variable -/
theorem sums_fix {f : NetFile K} (hf : f.Valid) {T : Asg → K} {v : Nat} (hv : v ∈ f.vars) :
    sums f.net T v = (List.range (f.card v)).map (fun i => sumOver f.card f.vars (fun z => if z v = i then T z else 0) (fun _ => 0)) := by
  unfold sums
  apply List.map_congr_left
  intro i hi
  have hnd : f.vars.Nodup := hf.sorted.imp ne_of_lt
  have := sumOver_fix (card := f.card) hnd (B := [v]) (by simp) (by simpa using hv) (y := Function.update (fun _ => 0) v i)
    (by simpa using (show i < f.card v from List.mem_range.mp hi)) (by
      intro u hu
      rw [Function.update_of_ne (by simpa using hu)]) T
  refine this.trans ?_
  refine sumOver_congr' fun z => ?_
  simp

/-- Normalised sums are the posterior of the unrolled network; both are zero if the total is. -/
theorem normalised {f : NetFile K} (hf : f.Valid) {seen : Nat → Nat → Int} {t k v : Nat} (hv : v ∈ f.vars) {T : Asg → K} {d : K} (hd : 0 < d)
    (hT : ∀ x, Legal f.card f.vars x → T x = d * (slice f seen t x * fwd f seen t x * bwd f seen k t x)) :
    (if (sums f.net T v).sum = 0 then sums f.net T v else (sums f.net T v).map (· / (sums f.net T v).sum)) = f.unrolledPosterior seen (t + 1 + k) t v := by
  classical
  have hnd : f.vars.Nodup := hf.sorted.imp ne_of_lt
  have hs : (sums f.net T v).sum = d * total f seen (t + 1 + k) := by
    rw [sums_sum hnd hv, total_at, ← sumOver_const_mul]
    exact sumOver_legal (U := f.vars) (fun z hz => hT z hz) _ _ (fun v hv hv' => absurd hv hv')
  have hshare : ∀ i, sumOver f.card f.vars (fun z => if z v = i then T z else 0) (fun _ => 0) =
      d * sumOver f.card f.vars (fun x => if x v = i then slice f seen t x * fwd f seen t x * bwd f seen k t x else 0) (fun _ => 0) := by
    intro i
    rw [← sumOver_const_mul]
    refine sumOver_legal (U := f.vars) (fun z hz => ?_) _ _ (fun v hv hv' => absurd hv hv')
    split
    · exact hT z hz
    · rw [mul_zero]
  unfold NetFile.unrolledPosterior
  by_cases htot : total f seen (t + 1 + k) = 0
  · rw [if_pos (by rw [hs, htot, mul_zero]), sums_fix hf hv]
    apply List.map_congr_left
    intro i _
    have h0 : f.unrolledTotal seen (t + 1 + k) (fun _ => True) = 0 := htot
    rw [h0, div_zero, hshare]
    have hw : ∀ x, 0 ≤ slice f seen t x * fwd f seen t x * bwd f seen k t x := fun x =>
      mul_nonneg (mul_nonneg (slice_nonneg hf seen t x) (fwd_nonneg hf seen t x)) (bwd_nonneg hf seen k t x)
    have hle : sumOver f.card f.vars (fun x => if x v = i then slice f seen t x * fwd f seen t x * bwd f seen k t x else 0) (fun _ => 0) ≤ total f seen (t + 1 + k) := by
      rw [total_at]
      refine sumOver_mono (fun z => ?_) _
      split
      · exact le_refl _
      · exact hw z
    rw [htot] at hle
    rw [le_antisymm hle (sumOver_nonneg (fun z => by
      split
      · exact hw z
      · exact le_refl _) _), mul_zero]
  · have hne : (sums f.net T v).sum ≠ 0 := by rw [hs]; exact mul_ne_zero hd.ne' htot
    rw [if_neg hne, hs, sums_fix hf hv, List.map_map]
    apply List.map_congr_left
    intro i _
    simp only [Function.comp]
    rw [unrolledTotal_eq f seen t k (fun x => x v = i), hshare]
    show _ = _ / total f seen (t + 1 + k)
    rw [mul_div_mul_left _ _ hd.ne']
    congr!

/-- without links over time all slices have the same weight -/
theorem slice_alone {f : NetFile K} (hf : f.Valid) (h : NetFile.olds f = []) (seen : Nat → Nat → Int) (t : Nat) (x : Asg) :
    slice f seen t x = slice f (fun _ => seen t) 0 x := by
  have hn : ∀ v ∈ f.vars, f.next v = none := by
    intro v hv
    cases e : f.next v with
    | none => rfl
    | some u => exact absurd (mem_olds.mpr ⟨hv, u, e⟩) (by rw [h]; simp)
  have hl := net_local hf
  unfold slice NetFile.sliceWeight weightOf
  congr 2
  refine congrArg List.prod (List.map_congr_left fun v hv => ?_)
  have h1 : f.next v = none := hn v (hl.rsub v hv)
  congr 1
  simp [h1]

/-- What is computed for variable `v` in slice `t`: without links over time only the slice counts. -/
noncomputable def NetFile.reply (f : NetFile K) (seen : Nat → Nat → Int) (n t v : Nat) : List K :=
  if NetFile.olds f = [] then f.unrolledPosterior (fun _ => seen t) 1 0 v else f.unrolledPosterior seen n t v

/-- the data of a slice and of the slices before -/
noncomputable def tsSees (marked : Nat → Bool) (ts : TimeSeries) : Nat → Nat → Int := dataSees marked ts.observed ts.data

/-- a series about variables of the network -/
structure About (f : NetFile K) (ts : TimeSeries) : Prop where
  wf : ts.WellFormed
  nodup : ts.observed.Nodup
  sub : ∀ v ∈ ts.observed, v ∈ f.vars

/-- what a slice adds to the log likelihood -/
noncomputable def llAfter (lg : Option (Logs K)) (m1 m2 ll : K) : K :=
  match lg with
  | none => ll
  | some g => if m2 = 0 then g.lowest else if 0 < m1 ∧ 0 < m2 then ll + (g.log m2 - g.log m1) else ll

theorem absorb_spec {f : NetFile K} (hf : f.Valid) {ts : TimeSeries} (hts : About f ts) (marked : Nat → Bool) (lg : Option (Logs K)) {t : Nat} (ht : t < ts.length)
    {m : Model K} {a : Potential K} (hn : ∀ b ∈ a.data, 0 ≤ b) (h : Model.Carries f.net m (slateOf f.net (decide (0 < t))) (before f t a)) (ll : K) :
    ∃ m' w, absorb lg marked ts t (m, ll) = ok (m', llAfter lg (sumOver f.card f.vars (before f t a) (fun _ => 0))
        (sumOver f.card f.vars (within f (tsSees marked ts) t a) (fun _ => 0)) ll) ∧ Model.Keeps f.net m m' ∧
      Model.Carries f.net m' w (within f (tsSees marked ts) t a) ∧ m'.tree.Agrees f.net.card (m'.tree.st f.net.card) := by
  have key : ∀ m1, Model.Carries f.net m1 (slateOf f.net (decide (0 < t))) (before f t a) →
      ∃ m2 m3 w, insertStep marked ts (t : Int) m1 = ok (0, m2) ∧ m2.makeConsistent = ok m3 ∧ Model.Keeps f.net m1 m3 ∧
      Model.Carries f.net m3 w (within f (tsSees marked ts) t a) ∧ m3.tree.Agrees f.net.card (m3.tree.st f.net.card) := by
    intro m1 h1
    obtain ⟨m2, i1, i2, i3⟩ := h1.insert (net_local hf) hts.wf hts.nodup hts.sub marked (slate_evidence _ _) ht
    obtain ⟨m3, c1, c2, c3, c4⟩ := i3.consistent
    exact ⟨m2, m3, _, i1, c1, i2.trans c2, c3, c4⟩
  cases lg with
  | none =>
    obtain ⟨m2, m3, w, k1, k2, k3, k4, k5⟩ := key m h
    refine ⟨m3, w, ?_, k3, k4, k5⟩
    unfold absorb
    simp only
    rw [k1, ok_bind]
    simp only
    rw [k2, ok_bind]
    rfl
  | some g =>
    obtain ⟨m1, c1, c2, c3, c4⟩ := h.consistent
    obtain ⟨m2, d1, d2, d3, d4⟩ := c3.mass c4 (fun _ => 0)
    obtain ⟨m3, m4, w, k1, k2, k3, k4, k5⟩ := key m2 d3
    obtain ⟨m5, e1, e2, e3, e4⟩ := k4.mass k5 (fun _ => 0)
    refine ⟨m5, w, ?_, c2.trans (d2.trans (k3.trans e2)), e3, e4⟩
    unfold absorb
    simp only
    rw [c1, ok_bind, d1, ok_bind]
    simp only
    rw [k1, ok_bind]
    simp only
    rw [k2, ok_bind, e1, ok_bind]
    simp only
    have hm2 : 0 ≤ sumOver f.net.card f.net.vars (within f (tsSees marked ts) t a) (fun _ => 0) := sumOver_nonneg (within_nonneg hf _ hn) _
    rw [if_pos hm2]
    rfl

/-- one round of forward inference -/
theorem forwardStep_spec {f : NetFile K} (hf : f.Valid) (htm : f.Temporal) {s : Interface} (hs : IsInterface f s) {ts : TimeSeries} (hts : About f ts)
    (marked : Nat → Bool) (lg : Option (Logs K)) {vars : List Nat} (hvars : ∀ v ∈ vars, v ∈ f.vars) {t : Nat} (ht : t < ts.length) {st : Filter K}
    (h : Model.Holds f.net st.model (slateOf f.net (decide (0 < t)))) (hi : InterfaceOk f.net st.model s) (ha : Alpha f (tsSees marked ts) t st.alpha) :
    ∃ st', forwardStep lg s marked ts vars t st = ok st' ∧ Model.Holds f.net st'.model (slateOf f.net (decide (0 < t + 1))) ∧
      InterfaceOk f.net st'.model s ∧ Alpha f (tsSees marked ts) (t + 1) st'.alpha ∧
      st'.results = st.results ++ [vars.map (fun v => if (sums f.net (within f (tsSees marked ts) t st.alpha) v).sum = 0
        then sums f.net (within f (tsSees marked ts) t st.alpha) v
        else (sums f.net (within f (tsSees marked ts) t st.alpha) v).map (· / (sums f.net (within f (tsSees marked ts) t st.alpha) v).sum))] ∧
      st'.ll = llAfter lg (sumOver f.card f.vars (before f t st.alpha) (fun _ => 0))
        (sumOver f.card f.vars (within f (tsSees marked ts) t st.alpha) (fun _ => 0)) st.ll := by
  have hat : TableOn f.card s.out st.alpha := by rw [hs.out]; exact ha.table
  obtain ⟨m1, a1, a2, a3⟩ := arrive hs h hi hat ha.nonneg
  obtain ⟨m2, w, b1, b2, b3, b4⟩ := absorb_spec hf hts marked lg ht ha.nonneg a3 st.ll
  obtain ⟨m3, c1, c2, c3, c4⟩ := Model.Carries.posteriors vars b3 b4 hvars []
  have hi3 : InterfaceOk f.net m3 s := hi.keep ((a2.trans (b2.trans c2)).1.skel)
  obtain ⟨a', d1, d2⟩ := depart hf htm hs ha hat c3 (by rw [c4]; exact b4) hi3
  obtain ⟨m4, m5, e1, e2, e3, e4⟩ := c3.prepare true
  refine ⟨{ model := m5, alpha := a', results := _, ll := _ }, ?_, ?_, hi3.keep e3.skel, d2, rfl, rfl⟩
  · unfold forwardStep
    rw [a1, ok_bind, b1, ok_bind]
    simp only
    have c1' : Nip.posteriors vars m2 = _ := c1
    rw [c1', ok_bind]
    simp only
    rw [d1, ok_bind, e1, ok_bind, e2, ok_bind, List.nil_append]
    rfl
  · rw [show decide (0 < t + 1) = true from decide_eq_true (Nat.succ_pos t)]
    exact e4

theorem newMessage_spec {f : NetFile K} (hf : f.Valid) (htm : f.Temporal) {s : Interface} (hs : IsInterface f s) {m : Model K} (hm : ∀ v, (m.var v).card = f.card v)
    (seen : Nat → Nat → Int) : ∃ a, newMessage s m = ok a ∧ Alpha f seen 0 a := by
  have hc : s.out.map (fun v => (m.var v).card) = s.out.map f.card := List.map_congr_left fun v _ => hm v
  obtain ⟨a, ha⟩ : ∃ a : Potential K, a = ⟨s.out.map f.card, List.replicate (s.out.map f.card).prod 1⟩ := ⟨_, rfl⟩
  have hpos : ∀ u ∈ s.out, 0 < f.card u := by
    intro u hu
    rw [hs.out] at hu
    exact hf.states u (succ_mem htm hu)
  refine ⟨a, ?_, ⟨⟨⟨by rw [ha]; simp, ?_⟩, by rw [ha, hs.out]⟩, ?_, ?_⟩⟩
  · unfold newMessage
    rw [hc]
    unfold Potential.new
    rw [if_neg (by omega)]
    have hl : (s.out.length : Int).toNat = (s.out.map f.card).length := by simp
    simp only [hl]
    rw [Potential.sizeOf_eq _ (le_refl _)]
    simp only [ok_bind, List.take_length]
    rw [ha]
  · rw [ha]
    intro c hc
    obtain ⟨u, hu, rfl⟩ := List.mem_map.mp hc
    exact hpos u hu
  · rw [ha]
    intro b hb
    rw [(List.mem_replicate.mp hb).2]; exact zero_le_one
  · intro _
    refine ⟨1, one_pos, fun x _ => ?_⟩
    unfold arrival
    rw [if_pos (Or.inl rfl), fwd, mul_one]

/-- the invariant of forward inference -/
theorem forward_all {f : NetFile K} (hf : f.Valid) (htm : f.Temporal) {s : Interface} (hs : IsInterface f s) {ts : TimeSeries} (hts : About f ts)
    (marked : Nat → Bool) (lg : Option (Logs K)) {vars : List Nat} (hvars : ∀ v ∈ vars, v ∈ f.vars) {m : Model K} {w : World K}
    (h : Model.Holds f.net m w) (hi : InterfaceOk f.net m s) :
    ∃ results ll m', forwardInference lg s marked ts vars m = ok (results, ll, m') ∧ results.length = ts.length ∧
      (∃ w', Model.Holds f.net m' w') ∧ InterfaceOk f.net m' s ∧
      (∀ t row, results[t]? = some row → total f (tsSees marked ts) (t + 1) ≠ 0 → row = vars.map (f.unrolledPosterior (tsSees marked ts) (t + 1) t)) ∧
      (∀ row ∈ results, row.map List.length = vars.map f.card) ∧
      ∀ t row, results[t]? = some row → row = vars.map (NetFile.reply f (tsSees marked ts) (t + 1) t) := by
  obtain ⟨a, n1, n2⟩ := newMessage_spec hf htm hs h.sound.card (tsSees marked ts)
  obtain ⟨m1, m2, p1, p2, p3, p4⟩ := h.carries.prepare false
  obtain ⟨st, e1, e2, e3, e4, e5, e6, e7, e8⟩ := loop_inv (n := ts.length) (s := ({ model := m2, alpha := a, results := [], ll := 0 } : Filter K))
    (f := forwardStep lg s marked ts vars) (fun t st => Model.Holds f.net st.model (slateOf f.net (decide (0 < t))) ∧ InterfaceOk f.net st.model s ∧
      Alpha f (tsSees marked ts) t st.alpha ∧ st.results.length = t ∧
      (∀ j row, st.results[j]? = some row → total f (tsSees marked ts) (j + 1) ≠ 0 → row = vars.map (f.unrolledPosterior (tsSees marked ts) (j + 1) j)) ∧
      (∀ row ∈ st.results, row.map List.length = vars.map f.card) ∧
      ∀ j row, st.results[j]? = some row → row = vars.map (NetFile.reply f (tsSees marked ts) (j + 1) j))
    ⟨p4, hi.keep p3.skel, n2, rfl, by simp, by simp, by simp⟩
    (by
      rintro t ht st ⟨h1, h2, h3, h4, h5, h6, h7⟩
      obtain ⟨st', g1, g2, g3, g4, g5, _⟩ := forwardStep_spec hf htm hs hts marked lg hvars ht h1 h2 h3
      have hcases : ∀ j row, st'.results[j]? = some row → st.results[j]? = some row ∨ j = t ∧ row = vars.map (fun v =>
          if (sums f.net (within f (tsSees marked ts) t st.alpha) v).sum = 0 then sums f.net (within f (tsSees marked ts) t st.alpha) v
          else (sums f.net (within f (tsSees marked ts) t st.alpha) v).map (· / (sums f.net (within f (tsSees marked ts) t st.alpha) v).sum)) := by
        intro j row hj
        rw [g5] at hj
        by_cases hlt : j < st.results.length
        · rw [List.getElem?_append_left hlt] at hj
          exact Or.inl hj
        · rw [List.getElem?_append_right (by omega)] at hj
          have hj0 : j - st.results.length = 0 := by
            by_contra hne
            rw [List.getElem?_eq_none (by simp; omega)] at hj
            cases hj
          rw [hj0] at hj
          simp only [List.getElem?_cons_zero, Option.some.injEq] at hj
          exact Or.inr ⟨by omega, hj.symm⟩
      refine ⟨st', g1, g2, g3, g4, by rw [g5, List.length_append, h4]; rfl, ?_, ?_, ?_⟩
      rotate_left
      · intro row hrow
        rw [g5] at hrow
        rcases List.mem_append.mp hrow with hrow | hrow
        · exact h6 row hrow
        · rw [List.mem_singleton] at hrow
          rw [hrow, List.map_map]
          exact List.map_congr_left fun v _ => by
            simp only [Function.comp]
            split <;> simp [sums, NetFile.net]
      · intro j row hj
        rcases hcases j row hj with hj | ⟨rfl, rfl⟩
        · exact h7 j row hj
        · apply List.map_congr_left
          intro v hv
          unfold NetFile.reply
          by_cases hne : NetFile.olds f = []
          · rw [if_pos hne]
            refine normalised hf (seen := fun _ => tsSees marked ts j) (t := 0) (k := 0) (hvars v hv) one_pos fun x hx => ?_
            rw [within_legal hf htm _ _ _ hx, slice_alone hf hne, fwd, bwd]
            unfold arrival
            rw [if_pos (Or.inr hne)]; ring
          · rw [if_neg hne]
            obtain ⟨d, d1, d2⟩ := h3.value (fun h => absurd h hne)
            refine normalised hf (k := 0) (hvars v hv) d1 fun x hx => ?_
            rw [within_legal hf htm _ _ _ hx, d2 x hx, bwd]; ring
      · intro j row hj htot
        rcases hcases j row hj with hj | ⟨rfl, rfl⟩
        · exact h5 j row hj htot
        · apply List.map_congr_left
          intro v hv
          obtain ⟨d, d1, d2⟩ := h3.value (fun _ => total_prefix hf _ htot)
          refine normalised hf (k := 0) (hvars v hv) d1 fun x hx => ?_
          rw [within_legal hf htm _ _ _ hx, d2 x hx, bwd]; ring)
  refine ⟨st.results, st.ll, st.model, ?_, e5, ⟨_, e2⟩, e3, e6, e7, e8⟩
  unfold forwardInference
  rw [n1, ok_bind, p1, ok_bind, p2, ok_bind, e1, ok_bind]

/-- forward inference for possible data -/
theorem forward_spec {f : NetFile K} (hf : f.Valid) (htm : f.Temporal) {s : Interface} (hs : IsInterface f s) {ts : TimeSeries} (hts : About f ts)
    (marked : Nat → Bool) (lg : Option (Logs K)) {vars : List Nat} (hvars : ∀ v ∈ vars, v ∈ f.vars) {m : Model K} {w : World K}
    (h : Model.Holds f.net m w) (hi : InterfaceOk f.net m s) :
    ∃ results ll m', forwardInference lg s marked ts vars m = ok (results, ll, m') ∧ results.length = ts.length ∧
      (∃ w', Model.Holds f.net m' w') ∧ InterfaceOk f.net m' s ∧
      (∀ t row, results[t]? = some row → total f (tsSees marked ts) (t + 1) ≠ 0 → row = vars.map (f.unrolledPosterior (tsSees marked ts) (t + 1) t)) ∧
      ∀ row ∈ results, row.map List.length = vars.map f.card := by
  obtain ⟨r, ll, m', h1, h2, h3, h4, h5, h6, _⟩ := forward_all hf htm hs hts marked lg hvars h hi
  exact ⟨r, ll, m', h1, h2, h3, h4, h5, h6⟩

end Nip
