import Verif.Filtering

/-! # Forward-backward inference computes the smoothing distribution of the unrolled network -/

namespace Nip

open Res Spec Model

set_option linter.unusedSectionVars false

variable {K : Type} [Field K] [LinearOrder K] [IsStrictOrderedRing K]

/-- a sum of non-negative numbers that is zero -/
theorem sumOver_zero_at {card : Nat → Nat} {vs : List Nat} {F : Asg → K} (h : ∀ z, 0 ≤ F z) {x : Asg} (h0 : sumOver card vs F x = 0) {y : Asg}
    (hy : Legal card vs y) (hyx : ∀ v, v ∉ vs → y v = x v) : F y = 0 := by
  induction vs generalizing x with
  | nil =>
    have : y = x := funext fun v => hyx v (by simp)
    rw [this]; exact h0
  | cons v vs ih =>
    simp only [sumOver] at h0
    rw [Finset.sum_eq_zero_iff_of_nonneg (fun i _ => sumOver_nonneg h _)] at h0
    refine ih (h0 (y v) (Finset.mem_range.mpr (hy v (List.mem_cons_self ..)))) (fun u hu => hy u (List.mem_cons_of_mem _ hu)) ?_
    intro u hu
    by_cases e : u = v
    · subst e; rw [Function.update_self]
    · rw [Function.update_of_ne e]
      exact hyx u (by simp [e, hu])

/-- the weight of a slice is about the variables of the network -/
theorem slice_congr {f : NetFile K} (hf : f.Valid) (seen : Nat → Nat → Int) (t : Nat) {x y : Asg} (h : ∀ v ∈ f.vars, x v = y v) :
    slice f seen t x = slice f seen t y := by
  unfold slice NetFile.sliceWeight weightOf
  have hl := net_local hf
  rw [hl.tables x y h]
  congr 2
  · congr 1
    apply List.map_congr_left
    intro v hv
    rw [h v (hl.rsub v hv)]
  · apply List.map_congr_left
    intro v hv
    rw [h v hv]

theorem fwd_congr {f : NetFile K} (seen : Nat → Nat → Int) (t : Nat) {x y : Asg} (h : ∀ v ∈ NetFile.olds f, x v = y v) : fwd f seen t x = fwd f seen t y := by
  cases t with
  | zero => rfl
  | succ t =>
    rw [fwd, fwd]
    refine sumOver_congr' fun z => ?_
    have : f.Linked z x ↔ f.Linked z y := by
      unfold NetFile.Linked
      refine forall₄_congr fun v hv u hu => ?_
      rw [h v (mem_olds.mpr ⟨hv, u, hu⟩)]
    by_cases hh : f.Linked z x
    · rw [if_pos hh, if_pos (this.mp hh)]
    · rw [if_neg hh, if_neg (fun h => hh (this.mpr h))]

/-- the assignment to a slice that goes with the assignment `y` to the slice before it, as far as the interface goes -/
def push (f : NetFile K) (y : Asg) (v : Nat) : Nat := if v ∈ NetFile.olds f then y (NetFile.succ f v) else 0

theorem push_old {f : NetFile K} (y : Asg) {v : Nat} (hv : v ∈ NetFile.olds f) : push f y v = y (NetFile.succ f v) := if_pos hv

theorem push_linked {f : NetFile K} (y z : Asg) : (∀ v ∈ NetFile.olds f, z v = push f y v) ↔ f.Linked y z := by
  unfold NetFile.Linked
  constructor
  · intro h v hv u hu
    have hu' : f.next v = some u := hu
    have hvo := mem_olds.mpr ⟨hv, u, hu'⟩
    rw [h v hvo, push_old y hvo]
    unfold NetFile.succ; rw [hu']; rfl
  · intro h v hv
    rw [push_old y hv]
    obtain ⟨hv', u, hu⟩ := mem_olds.mp hv
    rw [h v hv' u hu]
    unfold NetFile.succ; rw [hu]; rfl

theorem push_lt {f : NetFile K} (ht : f.Temporal) {y : Asg} (hy : Legal f.card f.vars y) : ∀ v ∈ NetFile.olds f, push f y v < f.card v := by
  intro v hv
  rw [push_old y hv]
  obtain ⟨hv', u, hu⟩ := mem_olds.mp hv
  obtain ⟨h1, h2⟩ := ht.states v hv' u hu
  unfold NetFile.succ
  rw [hu]
  simp only [Option.getD_some]
  rw [← h2]
  exact hy u h1

theorem push_legal {f : NetFile K} (hf : f.Valid) (ht : f.Temporal) {y : Asg} (hy : Legal f.card f.vars y) : Legal f.card f.vars (push f y) := by
  intro v hv
  by_cases h : v ∈ NetFile.olds f
  · exact push_lt ht hy v h
  · unfold push; rw [if_neg h]; exact hf.states v hv

theorem push_states {f : NetFile K} (ht : f.Temporal) (y : Asg) :
    states f.card (NetFile.olds f) (push f y) = states f.card ((NetFile.olds f).map (NetFile.succ f)) y := by
  unfold states
  rw [List.map_map]
  apply List.map_congr_left
  intro v hv
  simp only [Function.comp]
  rw [push_old y hv]
  obtain ⟨hv', u, hu'⟩ := mem_olds.mp hv
  unfold NetFile.succ
  rw [hu']
  simp only [Option.getD_some]
  rw [(ht.states v hv' u hu').2]

theorem push_sem {f : NetFile K} (ht : f.Temporal) (p : Potential K) (y : Asg) :
    sem f.card ((NetFile.olds f).map (NetFile.succ f)) p y = sem f.card (NetFile.olds f) p (push f y) := by
  unfold sem; rw [push_states ht]

/-- when the slices so far cannot be followed by the interface of `y`, they cannot end with `y` -/
theorem dead_end {f : NetFile K} (hf : f.Valid) (htm : f.Temporal) (seen : Nat → Nat → Int) (t : Nat) {y : Asg} (hy : Legal f.card f.vars y)
    (h0 : fwd f seen (t + 1) (push f y) = 0) : slice f seen t y * fwd f seen t y = 0 := by
  classical
  obtain ⟨y', hy'⟩ : ∃ y' : Asg, y' = fun v => if v ∈ f.vars then y v else 0 := ⟨_, rfl⟩
  have hag : ∀ v ∈ f.vars, y' v = y v := fun v hv => by rw [hy']; exact if_pos hv
  have hold : ∀ v ∈ NetFile.olds f, y' v = y v := fun v hv => hag v (mem_olds.mp hv).1
  rw [fwd] at h0
  have := sumOver_zero_at (F := fun x => if f.Linked x (push f y) then slice f seen t x * fwd f seen t x else 0) (by
      intro z
      split
      · exact mul_nonneg (slice_nonneg hf seen t z) (fwd_nonneg hf seen t z)
      · exact le_refl _) h0 (y := y') (fun v hv => by rw [hag v hv]; exact hy v hv) (fun v hv => by rw [hy']; exact if_neg hv)
  by_cases hl : f.Linked y' (push f y)
  · simp only [if_pos hl] at this
    rw [← this, slice_congr hf seen t hag, fwd_congr seen t hold]
  · exfalso
    apply hl
    have h1 : f.Linked y (push f y) := (push_linked y (push f y)).mp (fun _ _ => rfl)
    intro v hv u hu
    rw [h1 v hv u hu, hag u (htm.states v hv u hu).1]

/-- without temporal links slices say nothing about each other -/
theorem bwd_free {f : NetFile K} (h : NetFile.olds f = []) (seen : Nat → Nat → Int) (k t : Nat) (x y : Asg) : bwd f seen k t x = bwd f seen k t y := by
  classical
  cases k with
  | zero => rfl
  | succ k =>
    rw [bwd, bwd]
    refine sumOver_congr' fun z => ?_
    have hl : ∀ x, f.Linked x z := fun x => (push_linked x z).mp (by rw [h]; simp)
    rw [if_pos (hl x), if_pos (hl y)]

/-- a message from slice `t + 1`, which is followed by `k` slices, to slice `t` -/
structure Gamma (f : NetFile K) (seen : Nat → Nat → Int) (k t : Nat) (g : Potential K) : Prop where
  table : TableOn f.card ((NetFile.olds f).map (NetFile.succ f)) g
  nonneg : ∀ b ∈ g.data, 0 ≤ b
  value : NetFile.olds f ≠ [] → ∃ c, 0 < c ∧ ∀ y, Legal f.card f.vars y →
    sem f.card ((NetFile.olds f).map (NetFile.succ f)) g y = c * (fwd f seen (t + 1) (push f y) * bwd f seen (k + 1) t y)

/-- the factor brought by a message from the slice after -/
def feedback (f : NetFile K) (g a : Potential K) (x : Asg) : K :=
  if NetFile.olds f = [] then 1 else Model.ratio f.card ((NetFile.olds f).map (NetFile.succ f)) g (some a) x

theorem feedback_nonneg {f : NetFile K} {g a : Potential K} (hg : ∀ b ∈ g.data, 0 ≤ b) (ha : ∀ b ∈ a.data, 0 ≤ b) (x : Asg) : 0 ≤ feedback f g a x := by
  unfold feedback Model.ratio
  split
  · exact zero_le_one
  · simp only
    split
    · exact le_refl _
    · exact div_nonneg (sem_nonneg hg _ _ _) (sem_nonneg ha _ _ _)

/-- what the message from the slice after says -/
theorem feedback_spec {f : NetFile K} (hf : f.Valid) (htm : f.Temporal) {seen : Nat → Nat → Int} {k t : Nat} {g a : Potential K} (hg : Gamma f seen k t g)
    (ha : Alpha f seen (t + 1) a) (htot : NetFile.olds f = [] → total f seen (t + 1 + (k + 1)) ≠ 0) :
    ∃ c, 0 < c ∧ ∀ y, Legal f.card f.vars y → slice f seen t y * fwd f seen t y * feedback f g a y = c * (slice f seen t y * fwd f seen t y * bwd f seen (k + 1) t y) := by
  by_cases hne : NetFile.olds f = []
  · have hpos : ∀ y, 0 < bwd f seen (k + 1) t y := by
      intro y
      refine lt_of_le_of_ne (bwd_nonneg hf seen _ _ y) (fun h0 => htot hne ?_)
      rw [total_at]
      refine sumOver_eq_zero fun z _ => ?_
      rw [bwd_free hne seen (k + 1) t z y, ← h0, mul_zero]
    refine ⟨(bwd f seen (k + 1) t (fun _ => 0))⁻¹, inv_pos.mpr (hpos _), fun y _ => ?_⟩
    unfold feedback
    rw [if_pos hne, bwd_free hne seen (k + 1) t y (fun _ => 0), mul_one, mul_comm (slice f seen t y * fwd f seen t y), ← mul_assoc,
      inv_mul_cancel₀ (hpos _).ne', one_mul]
  · obtain ⟨c, c1, c2⟩ := hg.value hne
    obtain ⟨d, d1, d2⟩ := ha.value (fun h => absurd h hne)
    refine ⟨c / d, div_pos c1 d1, fun y hy => ?_⟩
    have ha' : sem f.card ((NetFile.olds f).map (NetFile.succ f)) a y = d * fwd f seen (t + 1) (push f y) := by
      rw [push_sem htm, ← d2 _ (push_legal hf htm hy)]
      unfold arrival
      rw [if_neg (by simp [hne])]
    unfold feedback Model.ratio
    rw [if_neg hne]
    simp only
    rw [ha', c2 y hy]
    by_cases h0 : fwd f seen (t + 1) (push f y) = 0
    · rw [dead_end hf htm seen t hy h0]; simp
    · rw [if_neg (mul_ne_zero d1.ne' h0)]
      have := d1.ne'
      field_simp

/-- the function represented by the tables of slice `t` in the backward phase -/
noncomputable def around (f : NetFile K) (seen : Nat → Nat → Int) (n t : Nat) (a : Potential K) (g b : Potential K) (x : Asg) : K :=
  within f seen t a x * if t + 1 < n then feedback f g b x else 1

theorem around_nonneg {f : NetFile K} (hf : f.Valid) (seen : Nat → Nat → Int) (n t : Nat) {a g b : Potential K} (ha : ∀ c ∈ a.data, 0 ≤ c)
    (hg : ∀ c ∈ g.data, 0 ≤ c) (hb : ∀ c ∈ b.data, 0 ≤ c) (x : Asg) : 0 ≤ around f seen n t a g b x := by
  refine mul_nonneg (within_nonneg hf seen ha x) ?_
  split
  · exact feedback_nonneg hg hb x
  · exact zero_le_one

theorem around_spec {f : NetFile K} (hf : f.Valid) (htm : f.Temporal) {seen : Nat → Nat → Int} {n t k : Nat} (hk : t + 1 + k = n) {a g b : Potential K}
    (ha : Alpha f seen t a) (hb : Alpha f seen (t + 1) b) (hg : ∀ j, k = j + 1 → Gamma f seen j t g) (htot : NetFile.olds f = [] → total f seen n ≠ 0) :
    ∃ d, 0 < d ∧ ∀ x, Legal f.card f.vars x → around f seen n t a g b x = d * (slice f seen t x * fwd f seen t x * bwd f seen k t x) := by
  obtain ⟨c, c1, c2⟩ := ha.value (fun h => total_prefix_le hf seen (by omega) (htot h))
  cases k with
  | zero =>
    refine ⟨c, c1, fun x hx => ?_⟩
    unfold around
    rw [if_neg (by omega), within_legal hf htm seen t a hx, c2 x hx, bwd]; ring
  | succ j =>
    obtain ⟨d, d1, d2⟩ := feedback_spec hf htm (hg j rfl) hb (by rw [hk]; exact htot)
    refine ⟨c * d, mul_pos c1 d1, fun x hx => ?_⟩
    unfold around
    rw [if_pos (by omega), within_legal hf htm seen t a hx, c2 x hx, mul_assoc c d, ← d2 x hx]; ring

/-- the message to the slice before -/
theorem recede {f : NetFile K} (hf : f.Valid) (htm : f.Temporal) {s : Interface} (hs : IsInterface f s) {m : Model K} {w : World K} {seen : Nat → Nat → Int} {t k : Nat}
    {b : Potential K} (hb : TableOn f.card s.out b) {T : Asg → K} (hT : ∀ x, 0 ≤ T x)
    (h : Model.Carries f.net m w T) (hag : m.tree.Agrees f.net.card (m.tree.st f.net.card)) (hi : InterfaceOk f.net m s)
    (hv : NetFile.olds f ≠ [] → ∃ d, 0 < d ∧ ∀ x, Legal f.card f.vars x →
      T x = d * (slice f seen (t + 1) x * fwd f seen (t + 1) x * bwd f seen k (t + 1) x)) :
    ∃ g, startPass s false m b = ok g ∧ Gamma f seen k t g := by
  classical
  obtain ⟨g, g1, g2, g3, g4⟩ := h.start hag hi false hb hT
  refine ⟨g, g1, by rw [← hs.out]; exact g2, ?_, ?_⟩
  · by_cases hne : s.out = []
    · rw [hne] at g2
      exact sem_data_nonneg List.nodup_nil g2 (fun x => by rw [g3 hne]; exact zero_le_one)
    · obtain ⟨c, c1, c2⟩ := g4 hne
      refine sem_data_nonneg (us := s.side !false) hi.prev.1 (hi.table g2 true) (fun x => ?_)
      exact le_of_le_of_eq (mul_nonneg c1.le (sumOver_nonneg hT _)) (c2 x).symm
  · intro hne
    obtain ⟨c, c1, c2⟩ := g4 (by rw [hs.out]; simpa using hne)
    obtain ⟨d, d1, d2⟩ := hv hne
    refine ⟨c * d, mul_pos c1 d1, fun y hy => ?_⟩
    have c3 := c2 (push f y)
    have hside : s.side (!false) = NetFile.olds f := hs.prev
    rw [hside] at c3
    rw [push_sem htm]
    refine c3.trans ?_
    rw [mul_assoc]
    congr 1
    have hnd : f.vars.Nodup := hf.sorted.imp ne_of_lt
    refine (sumOver_fix (B := NetFile.olds f) hnd (hnd.filter _) (fun u hu => (mem_olds.mp hu).1) (push_lt htm hy) (fun u hu => if_neg hu) _).trans ?_
    rw [bwd, ← sumOver_const_mul, ← sumOver_const_mul]
    refine sumOver_legal (U := f.vars) (fun z hz => ?_) _ _ (fun v hv hv' => absurd hv hv')
    by_cases hl : f.Linked y z
    · have h1 := (push_linked y z).mpr hl
      rw [if_pos h1, if_pos hl, d2 z hz, fwd_congr seen (t + 1) h1]; ring
    · rw [if_neg (fun h => hl ((push_linked y z).mp h)), if_neg hl]; simp

/-- any table will do for the first slice -/
theorem alpha_zero {f : NetFile K} {seen : Nat → Nat → Int} {a : Potential K} (h1 : TableOn f.card ((NetFile.olds f).map (NetFile.succ f)) a)
    (h2 : ∀ b ∈ a.data, 0 ≤ b) : Alpha f seen 0 a := by
  refine ⟨h1, h2, fun _ => ⟨1, one_pos, fun x _ => ?_⟩⟩
  unfold arrival
  rw [if_pos (Or.inl rfl), fwd, mul_one]

/-- the array of messages while slice `t` is at work in the forward phase: all slices before have left their messages -/
structure Mail (f : NetFile K) (seen : Nat → Nat → Int) (n t : Nat) (msgs : List (Potential K)) : Prop where
  length : msgs.length = n + 1
  table : ∀ a ∈ msgs, TableOn f.card ((NetFile.olds f).map (NetFile.succ f)) a
  nonneg : ∀ a ∈ msgs, ∀ b ∈ a.data, 0 ≤ b
  alpha : ∀ j a, j < t → msgs[j]? = some a → Alpha f seen (j + 1) a

/-- the message that slice `t` reads -/
theorem Mail.read {f : NetFile K} {seen : Nat → Nat → Int} {n t t' : Nat} {msgs : List (Potential K)} (h : Mail f seen n t' msgs) (hle : t ≤ t') (ht : t < n) :
    ∃ a, a ∈ msgs ∧ Alpha f seen t a ∧ ∀ (s : Interface) (m : Model K), arriveStored s t m msgs = arriveForward s t m a := by
  have hl := h.length
  have hlt : t - 1 < msgs.length := by omega
  refine ⟨msgs[t - 1], List.getElem_mem _, ?_, ?_⟩
  · cases t with
    | zero => exact alpha_zero (h.table _ (List.getElem_mem _)) (h.nonneg _ (List.getElem_mem _))
    | succ t => exact h.alpha t _ (by omega) (List.getElem?_eq_getElem _)
  · intro s m
    unfold arriveStored arriveForward
    split
    · rw [rd_lt hlt, ok_bind]
    · rfl

/-- a message is written -/
theorem Mail.write {f : NetFile K} {seen : Nat → Nat → Int} {n t : Nat} {msgs : List (Potential K)} (h : Mail f seen n t msgs) (ht : t < n) {a : Potential K}
    (ha : Alpha f seen (t + 1) a) : wr msgs t a = ok (msgs.set t a) ∧ Mail f seen n (t + 1) (msgs.set t a) := by
  have hl := h.length
  refine ⟨wr_lt (by omega), by rw [List.length_set]; exact hl, ?_, ?_, ?_⟩
  · intro b hb
    rcases List.mem_or_eq_of_mem_set hb with hb | rfl
    · exact h.table b hb
    · exact ha.table
  · intro b hb
    rcases List.mem_or_eq_of_mem_set hb with hb | rfl
    · exact h.nonneg b hb
    · exact ha.nonneg
  · intro j b hj hb
    by_cases e : j = t
    · subst e
      rw [List.getElem?_set_self (by omega)] at hb
      cases hb; exact ha
    · rw [List.getElem?_set_ne (Ne.symm e)] at hb
      exact h.alpha j b (by omega) hb

/-- one round of the forward phase -/
theorem smoothForward_spec {f : NetFile K} (hf : f.Valid) (htm : f.Temporal) {s : Interface} (hs : IsInterface f s) {ts : TimeSeries} (hts : About f ts)
    (marked : Nat → Bool) (lg : Option (Logs K)) {t : Nat} (ht : t < ts.length) {st : Smoother K}
    (h : Model.Holds f.net st.model (slateOf f.net (decide (0 < t)))) (hi : InterfaceOk f.net st.model s)
    (hm : Mail f (tsSees marked ts) ts.length t st.messages) :
    ∃ st' a, smoothForward lg s marked ts t st = ok st' ∧ Model.Holds f.net st'.model (slateOf f.net (decide (1 < ts.length))) ∧
      InterfaceOk f.net st'.model s ∧ Mail f (tsSees marked ts) ts.length (t + 1) st'.messages ∧ Alpha f (tsSees marked ts) t a ∧
      st'.ll = llAfter lg (sumOver f.card f.vars (before f t a) (fun _ => 0))
        (sumOver f.card f.vars (within f (tsSees marked ts) t a) (fun _ => 0)) st.ll ∧ Model.Same st.model st'.model := by
  obtain ⟨a, ha0, ha, har⟩ := hm.read (le_refl t) ht
  have hat : TableOn f.card s.out a := by rw [hs.out]; exact ha.table
  obtain ⟨m1, a1, a2, a3⟩ := arrive hs h hi hat ha.nonneg
  obtain ⟨m2, w, b1, b2, b3, b4⟩ := absorb_spec hf hts marked lg ht ha.nonneg a3 st.ll
  have hi2 : InterfaceOk f.net m2 s := hi.keep ((a2.trans b2).1.skel)
  have hlt : t < st.messages.length := by rw [hm.length]; omega
  obtain ⟨a', d1, d2⟩ := depart hf htm hs (b := st.messages[t]) ha (by rw [hs.out]; exact hm.table _ (List.getElem_mem _)) b3 b4 hi2
  obtain ⟨w1, w2⟩ := hm.write ht d2
  obtain ⟨m4, m5, e1, e2, e3, e4⟩ := b3.prepare (decide (1 < ts.length))
  refine ⟨{ model := m5, messages := st.messages.set t a', ll := _ }, a, ?_, e4, hi2.keep e3.skel, w2, ha, rfl, (a2.trans b2).1.trans e3⟩
  unfold smoothForward
  rw [har, a1, ok_bind, b1, ok_bind]
  simp only
  rw [rd_lt hlt, ok_bind, d1, ok_bind, w1, ok_bind, e1, ok_bind, e2, ok_bind]
  rfl

/-- the array of messages while slice `t` is at work in the backward phase -/
structure Post (f : NetFile K) (seen : Nat → Nat → Int) (n t : Nat) (msgs : List (Potential K)) : Prop where
  mail : Mail f seen n (t + 1) msgs
  gamma : ∀ k g, t + 1 + (k + 1) = n → msgs[t + 1]? = some g → Gamma f seen k t g

/-- the inference of one round of the backward phase -/
theorem smoothAbsorb_spec {f : NetFile K} (hf : f.Valid) {s : Interface} (hs : IsInterface f s) {ts : TimeSeries} (hts : About f ts)
    (marked : Nat → Bool) {t : Nat} (ht : t < ts.length) {m : Model K} {msgs : List (Potential K)}
    (h : Model.Holds f.net m (slateOf f.net (decide (0 < t)))) (hi : InterfaceOk f.net m s) (hm : Post f (tsSees marked ts) ts.length t msgs) :
    ∃ m' w a g b, smoothAbsorb s marked ts t m msgs = ok m' ∧ Model.Keeps f.net m m' ∧
      Model.Carries f.net m' w (around f (tsSees marked ts) ts.length t a g b) ∧ m'.tree.Agrees f.net.card (m'.tree.st f.net.card) ∧
      Alpha f (tsSees marked ts) t a ∧ msgs[t + 1]? = some g ∧ g ∈ msgs ∧ Alpha f (tsSees marked ts) (t + 1) b := by
  obtain ⟨a, ha0, ha, har⟩ := hm.mail.read (Nat.le_succ t) ht
  have hat : TableOn f.card s.out a := by rw [hs.out]; exact ha.table
  have hlen := hm.mail.length
  have h1 : t < msgs.length := by omega
  have h2 : t + 1 < msgs.length := by omega
  have hb : Alpha f (tsSees marked ts) (t + 1) msgs[t] := hm.mail.alpha t _ (by omega) (List.getElem?_eq_getElem _)
  have hg1 := hm.mail.table msgs[t + 1] (List.getElem_mem _)
  have hg2 := hm.mail.nonneg msgs[t + 1] (List.getElem_mem _)
  obtain ⟨m1, a1, a2, a3⟩ := arrive hs h hi hat ha.nonneg
  obtain ⟨m2, i1, i2, i3⟩ := a3.insert (net_local hf) hts.wf hts.nodup hts.sub marked (slate_evidence _ _) ht
  have hi2 : InterfaceOk f.net m2 s := hi.keep ((a2.trans i2).1.skel)
  obtain ⟨m3, w, b1, b2, b3⟩ : ∃ m3 w, arriveBackward s t ts.length m2 msgs = ok m3 ∧ Model.Keeps f.net m2 m3 ∧
      Model.Carries f.net m3 w (around f (tsSees marked ts) ts.length t a msgs[t + 1] msgs[t]) := by
    unfold arriveBackward
    by_cases hlt : t + 1 < ts.length
    · obtain ⟨m', g1, g2, g3⟩ := i3.finish hi2 false (num := msgs[t + 1]) (den := some msgs[t]) (by rw [hs.out]; exact hg1)
        (by rintro d ⟨rfl⟩; rw [hs.out]; exact hb.table) (fun x => sem_nonneg hg2 _ _ _) (by rintro d ⟨rfl⟩ x; exact sem_nonneg hb.nonneg _ _ _)
      refine ⟨m', _, by rw [if_pos hlt, rd_lt h2, ok_bind, rd_lt h1, ok_bind]; exact g1, g2, g3.congr fun x => ?_⟩
      unfold around
      rw [if_pos hlt]
      unfold feedback
      have hne : s.out = [] ↔ NetFile.olds f = [] := by rw [hs.out, List.map_eq_nil_iff]
      simp only [hne]
      have hside : s.side false = (NetFile.olds f).map (NetFile.succ f) := hs.out
      rw [hside]
      rfl
    · refine ⟨m2, _, by rw [if_neg hlt], Model.Keeps.refl _ m2, i3.congr fun x => ?_⟩
      unfold around
      rw [if_neg hlt, mul_one]
      rfl
  obtain ⟨m4, c1, c2, c3, c4⟩ := b3.consistent
  refine ⟨m4, w, a, msgs[t + 1], msgs[t], ?_, a2.trans (i2.trans (b2.trans c2)), c3, c4, ha, List.getElem?_eq_getElem _, List.getElem_mem _, hb⟩
  unfold smoothAbsorb
  rw [har, a1, ok_bind, i1, ok_bind]
  simp only
  rw [b1, ok_bind, c1]

/-- one round of the backward phase -/
theorem smoothBackward_spec {f : NetFile K} (hf : f.Valid) (htm : f.Temporal) {s : Interface} (hs : IsInterface f s) {ts : TimeSeries} (hts : About f ts)
    (marked : Nat → Bool) {vars : List Nat} (hvars : ∀ v ∈ vars, v ∈ f.vars) {t : Nat} (ht : t < ts.length) {m : Model K} {msgs : List (Potential K)}
    {results : List (List (List K))} (hr : results.length = ts.length)
    (h : Model.Holds f.net m (slateOf f.net (decide (0 < t)))) (hi : InterfaceOk f.net m s) (hm : Post f (tsSees marked ts) ts.length t msgs) :
    ∃ m' msgs' row, smoothBackward s marked ts vars t (m, msgs, results) = ok (m', msgs', results.set t row) ∧
      Model.Holds f.net m' (slateOf f.net (decide (0 < t - 1))) ∧ InterfaceOk f.net m' s ∧ (0 < t → Post f (tsSees marked ts) ts.length (t - 1) msgs') ∧
      (total f (tsSees marked ts) ts.length ≠ 0 → row = vars.map (f.unrolledPosterior (tsSees marked ts) ts.length t)) ∧
      row.map List.length = vars.map f.card ∧ Model.Same m m' ∧ row = vars.map (NetFile.reply f (tsSees marked ts) ts.length t) := by
  obtain ⟨m1, w, a, g, b, a1, a2, a3, a4, ha, hg, hgm, hb⟩ := smoothAbsorb_spec hf hs hts marked ht h hi hm
  obtain ⟨m2, c1, c2, c3, c4⟩ := Model.Carries.posteriors vars a3 a4 hvars []
  have hi2 : InterfaceOk f.net m2 s := hi.keep ((a2.trans c2).1.skel)
  obtain ⟨k, hk⟩ : ∃ k, t + 1 + k = ts.length := ⟨ts.length - (t + 1), by omega⟩
  have hval : (NetFile.olds f = [] → total f (tsSees marked ts) ts.length ≠ 0) → ∃ d, 0 < d ∧ ∀ x, Legal f.card f.vars x →
      around f (tsSees marked ts) ts.length t a g b x = d * (slice f (tsSees marked ts) t x * fwd f (tsSees marked ts) t x * bwd f (tsSees marked ts) k t x) :=
    around_spec hf htm hk ha hb (fun j hj => hm.gamma j g (by omega) hg)
  have hnn := around_nonneg hf (tsSees marked ts) ts.length t ha.nonneg (hm.mail.nonneg g hgm) hb.nonneg
  have hlen := hm.mail.length
  have hlt : t < msgs.length := by omega
  obtain ⟨msgs', d1, d2⟩ : ∃ msgs', departBackward s t m2 msgs = ok msgs' ∧ (0 < t → Post f (tsSees marked ts) ts.length (t - 1) msgs') := by
    unfold departBackward
    by_cases h0 : 0 < t
    · obtain ⟨t', rfl⟩ : ∃ t', t = t' + 1 := ⟨t - 1, by omega⟩
      have hbt : TableOn f.card s.out msgs[t' + 1] := by rw [hs.out]; exact hm.mail.table _ (List.getElem_mem _)
      obtain ⟨g', e1, e2⟩ := recede (k := k) (t := t') (seen := tsSees marked ts) hf htm hs hbt hnn c3 (by rw [c4]; exact a4) hi2
        (fun hne => hval (fun h => absurd h hne))
      refine ⟨msgs.set (t' + 1) g', by rw [if_pos h0, rd_lt hlt, ok_bind, e1, ok_bind, wr_lt hlt], fun _ => ⟨⟨?_, ?_, ?_, ?_⟩, ?_⟩⟩
      · rw [List.length_set]; exact hlen
      · intro p hp
        rcases List.mem_or_eq_of_mem_set hp with hp | rfl
        · exact hm.mail.table p hp
        · exact e2.table
      · intro p hp
        rcases List.mem_or_eq_of_mem_set hp with hp | rfl
        · exact hm.mail.nonneg p hp
        · exact e2.nonneg
      · intro j p hj hp
        rw [List.getElem?_set_ne (by omega)] at hp
        exact hm.mail.alpha j p (by omega) hp
      · intro k' g'' hk' hg''
        rw [Nat.add_sub_cancel, List.getElem?_set_self hlt] at hg''
        cases hg''
        have : k' = k := by omega
        rw [this]
        exact e2
    · exact ⟨msgs, by rw [if_neg h0], fun h => absurd h h0⟩
  obtain ⟨m4, m5, e1, e2, e3, e4⟩ := c3.prepare (decide (1 < t))
  refine ⟨m5, msgs', [] ++ vars.map (fun v => if (sums f.net (around f (tsSees marked ts) ts.length t a g b) v).sum = 0
      then sums f.net (around f (tsSees marked ts) ts.length t a g b) v
      else (sums f.net (around f (tsSees marked ts) ts.length t a g b) v).map (· / (sums f.net (around f (tsSees marked ts) ts.length t a g b) v).sum)),
    ?_, ?_, hi2.keep e3.skel, d2, ?_, ?_, (a2.trans c2).1.trans e3, ?_⟩
  · unfold smoothBackward smoothLeave
    simp only
    rw [a1, ok_bind]
    have c1' : Nip.posteriors vars m1 = _ := c1
    rw [c1', ok_bind]
    simp only
    rw [wr_lt (by omega), ok_bind, d1]
    simp only [ok_bind]
    rw [e1, ok_bind, e2, ok_bind]
    rfl
  · rw [show decide (0 < t - 1) = decide (1 < t) from by congr 1; exact propext (by omega)]
    exact e4
  · intro htot
    rw [List.nil_append]
    apply List.map_congr_left
    intro v hv
    obtain ⟨d, d1, d2⟩ := hval (fun _ => htot)
    have := normalised hf (seen := tsSees marked ts) (t := t) (k := k) (hvars v hv) d1 d2
    rw [hk] at this
    exact this
  · rw [List.nil_append, List.map_map]
    exact List.map_congr_left fun v _ => by
      simp only [Function.comp]
      split <;> simp [sums, NetFile.net]
  · rw [List.nil_append]
    apply List.map_congr_left
    intro v hv
    unfold NetFile.reply
    by_cases hne : NetFile.olds f = []
    · rw [if_pos hne]
      refine normalised hf (seen := fun _ => tsSees marked ts t) (t := 0) (k := 0) (hvars v hv) one_pos fun x hx => ?_
      unfold around feedback
      rw [within_legal hf htm _ _ _ hx, slice_alone hf hne, fwd, bwd]
      unfold arrival
      rw [if_pos (Or.inr hne), if_pos hne, ite_self]; ring
    · rw [if_neg hne]
      obtain ⟨d, d1, d2⟩ := hval (fun h => absurd h hne)
      have := normalised hf (seen := tsSees marked ts) (t := t) (k := k) (hvars v hv) d1 d2
      rw [hk] at this
      exact this

/-- forward-backward inference -/
theorem smooth_all {f : NetFile K} (hf : f.Valid) (htm : f.Temporal) {s : Interface} (hs : IsInterface f s) {ts : TimeSeries} (hts : About f ts)
    (marked : Nat → Bool) (lg : Option (Logs K)) {vars : List Nat} (hvars : ∀ v ∈ vars, v ∈ f.vars) {m : Model K} {w : World K} {T : Asg → K}
    (h : Model.Carries f.net m w T) (hi : InterfaceOk f.net m s) :
    ∃ results ll m', forwardBackward lg s marked ts vars m = ok (results, ll, m') ∧ results.length = ts.length ∧
      (∃ w', Model.Holds f.net m' w') ∧ InterfaceOk f.net m' s ∧
      (total f (tsSees marked ts) ts.length ≠ 0 → ∀ t row, results[t]? = some row → row = vars.map (f.unrolledPosterior (tsSees marked ts) ts.length t)) ∧
      (∀ row ∈ results, row.map List.length = vars.map f.card) ∧ Model.Same m m' ∧
      ∀ t row, results[t]? = some row → row = vars.map (NetFile.reply f (tsSees marked ts) ts.length t) := by
  obtain ⟨a, n1, n2⟩ := newMessage_spec hf htm hs h.sound.card (tsSees marked ts)
  obtain ⟨m1, m2, p1, p2, p3, p4⟩ := h.prepare false
  have hmail : Mail f (tsSees marked ts) ts.length 0 (List.replicate (ts.length + 1) a) := by
    refine ⟨List.length_replicate, ?_, ?_, fun j _ hj => absurd hj (Nat.not_lt_zero j)⟩
    · intro b hb; rw [(List.mem_replicate.mp hb).2]; exact n2.table
    · intro b hb; rw [(List.mem_replicate.mp hb).2]; exact n2.nonneg
  obtain ⟨st, e1, e2, e3, e4, hsm⟩ := loop_inv (n := ts.length) (s := ({ model := m2, messages := List.replicate (ts.length + 1) a, ll := 0 } : Smoother K))
    (f := smoothForward lg s marked ts) (fun t st => Model.Holds f.net st.model (slateOf f.net (decide (0 < min t (ts.length - 1)))) ∧
      InterfaceOk f.net st.model s ∧ Mail f (tsSees marked ts) ts.length t st.messages ∧ Model.Same m st.model)
    ⟨by rw [show decide (0 < min 0 (ts.length - 1)) = false by simp]; exact p4, hi.keep p3.skel, hmail, p3⟩
    (by
      rintro t ht st ⟨h1, h2, h3, hsm⟩
      rw [show min t (ts.length - 1) = t by omega] at h1
      obtain ⟨st', _, g1, g2, g3, g4, _, _, hs'⟩ := smoothForward_spec hf htm hs hts marked lg ht h1 h2 h3
      refine ⟨st', g1, ?_, g3, g4, hsm.trans hs'⟩
      rw [show decide (0 < min (t + 1) (ts.length - 1)) = decide (1 < ts.length) from by congr 1; exact propext (by omega)]
      exact g2)
  rw [show min ts.length (ts.length - 1) = ts.length - 1 by omega] at e2
  obtain ⟨blank, hblank⟩ : ∃ blank, blank = vars.map (fun v => List.replicate (m2.var v).card (0 : K)) := ⟨_, rfl⟩
  obtain ⟨⟨m', msgs', results⟩, q1, q2, q3, _, q4, q5, q6, q7, q8⟩ := loopDown_inv (n := ts.length)
    (s := (st.model, st.messages, List.replicate ts.length blank)) (f := smoothBackward s marked ts vars)
    (fun t (q : Model K × List (Potential K) × List (List (List K))) => Model.Holds f.net q.1 (slateOf f.net (decide (0 < t - 1))) ∧ InterfaceOk f.net q.1 s ∧
      (0 < t → Post f (tsSees marked ts) ts.length (t - 1) q.2.1) ∧ q.2.2.length = ts.length ∧
      (total f (tsSees marked ts) ts.length ≠ 0 → ∀ j row, t ≤ j → q.2.2[j]? = some row → row = vars.map (f.unrolledPosterior (tsSees marked ts) ts.length j)) ∧
      (∀ j row, t ≤ j → q.2.2[j]? = some row → row.map List.length = vars.map f.card) ∧ Model.Same m q.1 ∧
      ∀ j row, t ≤ j → q.2.2[j]? = some row → row = vars.map (NetFile.reply f (tsSees marked ts) ts.length j))
    ⟨e2, e3, fun h0 => ⟨by rw [Nat.sub_add_cancel h0]; exact e4, fun k g hk => by omega⟩, List.length_replicate, (by
      intro _ j row hj hr
      rw [List.getElem?_eq_none (by simpa using hj)] at hr; cases hr), (by
      intro j row hj hr
      rw [List.getElem?_eq_none (by simpa using hj)] at hr; cases hr), hsm, (by
      intro j row hj hr
      rw [List.getElem?_eq_none (by simpa using hj)] at hr; cases hr)⟩
    (by
      rintro t ht ⟨m0, msgs, results⟩ ⟨h1, h2, h3, h4, h5, h6, h7, h8⟩
      obtain ⟨m', msgs', row, g1, g2, g3, g4, g5, g6, g7, g8⟩ := smoothBackward_spec hf htm hs hts marked hvars ht h4 h1 h2 (h3 (Nat.succ_pos t))
      refine ⟨(m', msgs', results.set t row), g1, g2, g3, g4, by simpa using h4, ?_, ?_, h7.trans g7, ?_⟩
      rotate_left
      · intro j row' hj hr
        by_cases e : j = t
        · subst e
          simp only at hr h4
          rw [List.getElem?_set_self (by omega)] at hr
          cases hr; exact g6
        · simp only at hr
          rw [List.getElem?_set_ne (Ne.symm e)] at hr
          exact h6 j row' (by omega) hr
      · intro j row' hj hr
        by_cases e : j = t
        · subst e
          simp only at hr h4
          rw [List.getElem?_set_self (by omega)] at hr
          cases hr; exact g8
        · simp only at hr
          rw [List.getElem?_set_ne (Ne.symm e)] at hr
          exact h8 j row' (by omega) hr
      intro htot j row' hj hr
      by_cases e : j = t
      · subst e
        simp only at hr h4
        rw [List.getElem?_set_self (by omega)] at hr
        cases hr; exact g5 htot
      · simp only at hr
        rw [List.getElem?_set_ne (Ne.symm e)] at hr
        exact h5 htot j row' (by omega) hr)
  refine ⟨results, st.ll, m', ?_, q4, ⟨_, q2⟩, q3, fun htot t row hr => q5 htot t row (Nat.zero_le t) hr, (fun row hr => by
    obtain ⟨j, hj⟩ := List.mem_iff_getElem?.mp hr
    exact q6 j row (Nat.zero_le j) hj), q7, fun t row hr => q8 t row (Nat.zero_le t) hr⟩
  unfold forwardBackward newMessages
  rw [n1]
  simp only [ok_bind]
  rw [p1, ok_bind, p2, ok_bind, e1, ok_bind, ← hblank, q1, ok_bind]

/-- forward-backward inference for possible data -/
theorem smooth_spec {f : NetFile K} (hf : f.Valid) (htm : f.Temporal) {s : Interface} (hs : IsInterface f s) {ts : TimeSeries} (hts : About f ts)
    (marked : Nat → Bool) (lg : Option (Logs K)) {vars : List Nat} (hvars : ∀ v ∈ vars, v ∈ f.vars) {m : Model K} {w : World K} {T : Asg → K}
    (h : Model.Carries f.net m w T) (hi : InterfaceOk f.net m s) :
    ∃ results ll m', forwardBackward lg s marked ts vars m = ok (results, ll, m') ∧ results.length = ts.length ∧
      (∃ w', Model.Holds f.net m' w') ∧ InterfaceOk f.net m' s ∧
      (total f (tsSees marked ts) ts.length ≠ 0 → ∀ t row, results[t]? = some row → row = vars.map (f.unrolledPosterior (tsSees marked ts) ts.length t)) ∧
      (∀ row ∈ results, row.map List.length = vars.map f.card) ∧ Model.Same m m' := by
  obtain ⟨r, ll, m', h1, h2, h3, h4, h5, h6, h7, _⟩ := smooth_all hf htm hs hts marked lg hvars h hi
  exact ⟨r, ll, m', h1, h2, h3, h4, h5, h6, h7⟩

/-- for possible data it makes no difference whether a slice is taken alone, if there are no links -/
theorem reply_possible {f : NetFile K} (hf : f.Valid) {seen : Nat → Nat → Int} {n t v : Nat} (ht : t < n) (hv : v ∈ f.vars) (h : total f seen n ≠ 0) :
    NetFile.reply f seen n t v = f.unrolledPosterior seen n t v := by
  unfold NetFile.reply
  by_cases hne : NetFile.olds f = []
  · rw [if_pos hne]
    obtain ⟨k, rfl⟩ : ∃ k, t + 1 + k = n := ⟨n - (t + 1), by omega⟩
    have hfw : ∀ x, fwd f seen t x = fwd f seen t (fun _ => 0) := fun x => fwd_congr seen t (by rw [hne]; simp)
    have hbw : ∀ x, bwd f seen k t x = bwd f seen k t (fun _ => 0) := fun x => bwd_free hne seen k t x _
    have h1 : 0 < fwd f seen t (fun _ => 0) := by
      refine lt_of_le_of_ne (fwd_nonneg hf seen t _) (fun h0 => h ?_)
      rw [total_at]
      exact sumOver_eq_zero fun z _ => by rw [hfw z, ← h0, mul_zero, zero_mul]
    have h2 : 0 < bwd f seen k t (fun _ => 0) := by
      refine lt_of_le_of_ne (bwd_nonneg hf seen k t _) (fun h0 => h ?_)
      rw [total_at]
      exact sumOver_eq_zero fun z _ => by rw [hbw z, ← h0, mul_zero]
    have e1 := normalised hf (seen := seen) (t := t) (k := k) hv (T := slice f seen t) (inv_pos.mpr (mul_pos h1 h2)) (fun x _ => by
      rw [hfw x, hbw x]
      have := h1.ne'
      have := h2.ne'
      field_simp)
    have e2 := normalised hf (seen := fun _ => seen t) (t := 0) (k := 0) hv (T := slice f seen t) one_pos (fun x _ => by
      rw [slice_alone hf hne, fwd, bwd]; ring)
    exact e2.symm.trans e1
  · rw [if_neg hne]

theorem posteriorOrZeros_eq (f : NetFile K) (seen : Nat → Nat → Int) (n t v : Nat) :
    f.posteriorOrZeros seen n t v = f.unrolledPosterior seen n t v := by
  classical
  unfold NetFile.posteriorOrZeros
  by_cases h : f.unrolledTotal seen n (fun _ => True) = 0
  · rw [if_pos h]
    unfold NetFile.unrolledPosterior
    rw [h]
    simp [List.map_const']
  · rw [if_neg h]

theorem links_olds (f : NetFile K) : f.Links ↔ NetFile.olds f ≠ [] := by
  unfold NetFile.Links
  constructor
  · rintro ⟨v, hv, hn⟩ h
    cases e : f.next v with
    | none => exact hn e
    | some u => exact absurd (mem_olds.mpr ⟨hv, u, e⟩) (by rw [h]; simp)
  · intro h
    obtain ⟨v, hv⟩ := List.exists_mem_of_ne_nil _ h
    obtain ⟨h1, u, h2⟩ := mem_olds.mp hv
    exact ⟨v, h1, by rw [h2]; simp⟩

theorem reply_answer (f : NetFile K) (seen : Nat → Nat → Int) (n t v : Nat) :
    NetFile.reply f seen n t v = f.answer seen n t v := by
  classical
  unfold NetFile.reply NetFile.answer
  rw [posteriorOrZeros_eq, posteriorOrZeros_eq]
  by_cases h : NetFile.olds f = []
  · rw [if_pos h, if_neg (fun hl => (links_olds f).mp hl h)]
  · rw [if_neg h, if_pos ((links_olds f).mpr h)]

theorem reply_length (f : NetFile K) (seen : Nat → Nat → Int) (n t v : Nat) : (NetFile.reply f seen n t v).length = f.card v := by
  unfold NetFile.reply NetFile.unrolledPosterior
  split <;> simp

end Nip
