import Verif.Smoothing

/-! # The likelihood reported by inference over time -/

namespace Nip

open Res Spec Model

set_option linter.unusedSectionVars false

variable {K : Type} [Field K] [LinearOrder K] [IsStrictOrderedRing K]

/-- the past does not depend on what is seen later -/
theorem fwd_seen {f : NetFile K} {seen seen' : Nat → Nat → Int} {t : Nat} (h : ∀ s, s < t → seen s = seen' s) (x : Asg) : fwd f seen t x = fwd f seen' t x := by
  induction t generalizing x with
  | zero => rfl
  | succ t ih =>
    rw [fwd, fwd]
    refine sumOver_congr' fun z => ?_
    have : slice f seen t z = slice f seen' t z := by unfold slice; rw [h t (Nat.lt_succ_self t)]
    rw [this, ih (fun s hs => h s (Nat.lt_succ_of_lt hs))]

theorem hide_lt (seen : Nat → Nat → Int) {s t : Nat} (h : s < t) : hide seen t s = seen s := by
  funext v; unfold hide; rw [if_neg (by omega)]

theorem hide_self (seen : Nat → Nat → Int) (t : Nat) : hide seen t t = fun _ => -1 := by
  funext v; unfold hide; rw [if_pos rfl]

/-- the weight before data are entered is the weight of a slice in which nothing is seen -/
theorem before_legal {f : NetFile K} (hf : f.Valid) (ht : f.Temporal) (seen : Nat → Nat → Int) (t : Nat) (a : Potential K) {x : Asg} (hx : Legal f.card f.vars x) :
    before f t a x = slice f (hide seen t) t x * arrival f t a x := by
  rw [← within_legal hf ht (hide seen t) t a hx]
  unfold within sight
  rw [hide_self]
  have : (f.net.vars.map (fun v => (vision (K := K) f.card (fun _ => -1) v).getD (x v % f.net.card v) 0)).prod = 1 := by
    refine List.prod_eq_one ?_
    intro b hb
    obtain ⟨v, hv, rfl⟩ := List.mem_map.mp hb
    unfold vision
    rw [if_pos (show (-1 : Int) < 0 by decide)]
    exact getD_ones (Nat.mod_lt _ (hf.states v hv))
  rw [this, mul_one]

/-- the masses before and after the data of a slice -/
theorem masses {f : NetFile K} (hf : f.Valid) (htm : f.Temporal) {seen : Nat → Nat → Int} {t : Nat} {a : Potential K} (ha : Alpha f seen t a)
    (htot : NetFile.olds f = [] → total f seen t ≠ 0) : ∃ c, 0 < c ∧ sumOver f.card f.vars (before f t a) (fun _ => 0) = c * total f (hide seen t) (t + 1) ∧
      sumOver f.card f.vars (within f seen t a) (fun _ => 0) = c * total f seen (t + 1) := by
  obtain ⟨c, c1, c2⟩ := ha.value htot
  refine ⟨c, c1, ?_, ?_⟩
  · rw [total_succ, ← sumOver_const_mul]
    refine sumOver_legal (U := f.vars) (fun z hz => ?_) _ _ (fun v hv hv' => absurd hv hv')
    rw [before_legal hf htm seen t a hz, c2 z hz, fwd_seen (fun s hs => hide_lt seen hs)]; ring
  · rw [total_succ, ← sumOver_const_mul]
    refine sumOver_legal (U := f.vars) (fun z hz => ?_) _ _ (fun v hv hv' => absurd hv hv')
    rw [within_legal hf htm seen t a hz, c2 z hz]; ring

theorem mass_before_pos {f : NetFile K} (hf : f.Valid) {seen : Nat → Nat → Int} {t : Nat} {a : Potential K} (ha : ∀ b ∈ a.data, 0 ≤ b)
    (h : sumOver f.card f.vars (within f seen t a) (fun _ => 0) ≠ 0) : 0 < sumOver f.card f.vars (before f t a) (fun _ => 0) := by
  refine lt_of_le_of_ne (sumOver_nonneg (before_nonneg hf ha) _) (fun h0 => h ?_)
  have : sumOver f.card f.vars (within f seen t a) (fun _ => 0) = sumOver f.card f.vars (fun z => before f t a z * sight f.net (vision f.card (seen t)) z) (fun _ => 0) := rfl
  rw [this]
  have hz : ∀ z, Legal f.card f.vars z → (∀ v, v ∉ f.vars → z v = 0) → before f t a z = 0 := fun z h1 h2 =>
    sumOver_zero_at (before_nonneg hf ha) h0.symm h1 h2
  have key : ∀ (vs : List Nat) (x : Asg), (∀ v ∈ f.vars, v ∉ vs → x v < f.card v) → (∀ v, v ∉ f.vars → x v = 0) → (∀ v ∈ vs, v ∈ f.vars) →
      sumOver f.card vs (fun z => before f t a z * sight f.net (vision f.card (seen t)) z) x = 0 := by
    intro vs
    induction vs with
    | nil =>
      intro x h1 h2 _
      show before f t a x * _ = 0
      rw [hz x (fun v hv => h1 v hv (by simp)) h2, zero_mul]
    | cons v vs ih =>
      intro x h1 h2 h3
      refine Finset.sum_eq_zero fun i hi => ih _ ?_ ?_ (fun u hu => h3 u (List.mem_cons_of_mem _ hu))
      · intro u hu hu'
        by_cases e : u = v
        · subst e; rw [Function.update_self]; exact Finset.mem_range.mp hi
        · rw [Function.update_of_ne e]; exact h1 u hu (by simp [e, hu'])
      · intro u hu
        rw [Function.update_of_ne (fun e => hu (by rw [e]; exact h3 v (List.mem_cons_self ..)))]
        exact h2 u hu
  exact key f.vars _ (fun v hv hv' => absurd hv hv') (fun _ _ => rfl) (fun _ h => h)

/-- what a slice adds -/
theorem llAfter_eq {f : NetFile K} (hf : f.Valid) (htm : f.Temporal) {seen : Nat → Nat → Int} {t : Nat} {a : Potential K} (ha : Alpha f seen t a)
    (htot : total f seen (t + 1) ≠ 0) {g : Logs K} (hg : g.Law) (ll : K) :
    llAfter (some g) (sumOver f.card f.vars (before f t a) (fun _ => 0)) (sumOver f.card f.vars (within f seen t a) (fun _ => 0)) ll =
      ll + g.log (f.evidenceProb seen t) := by
  obtain ⟨c, c1, c2, c3⟩ := masses hf htm ha (fun _ => total_prefix hf seen htot)
  have h2 : 0 < sumOver f.card f.vars (within f seen t a) (fun _ => 0) := by
    rw [c3]; exact mul_pos c1 (lt_of_le_of_ne (total_nonneg hf seen _) (Ne.symm htot))
  have h1 := mass_before_pos hf ha.nonneg h2.ne'
  unfold llAfter
  simp only
  rw [if_neg h2.ne', if_pos ⟨h1, h2⟩, hg _ _ h2 h1, c2, c3, mul_div_mul_left _ _ c1.ne']
  rfl

/-- impossible data -/
theorem llAfter_zero {f : NetFile K} (hf : f.Valid) (htm : f.Temporal) {seen : Nat → Nat → Int} {t : Nat} {a : Potential K} (ha : Alpha f seen t a)
    (hne : NetFile.olds f = [] → total f seen t ≠ 0) (htot : total f seen (t + 1) = 0) (g : Logs K) (ll : K) :
    llAfter (some g) (sumOver f.card f.vars (before f t a) (fun _ => 0)) (sumOver f.card f.vars (within f seen t a) (fun _ => 0)) ll = g.lowest := by
  obtain ⟨c, c1, c2, c3⟩ := masses hf htm ha hne
  unfold llAfter
  simp only
  rw [if_pos (by rw [c3, htot, mul_zero])]

/-- the likelihood reported -/
noncomputable def llSpec (f : NetFile K) (g : Logs K) (seen : Nat → Nat → Int) (n : Nat) : K :=
  if total f seen n = 0 then g.lowest else ∑ t ∈ Finset.range n, g.log (f.evidenceProb seen t)

theorem llSpec_zero (f : NetFile K) (g : Logs K) (seen : Nat → Nat → Int) : llSpec f g seen 0 = 0 := by
  unfold llSpec; rw [total_zero, if_neg one_ne_zero]; rfl

theorem llSpec_succ {f : NetFile K} (hf : f.Valid) (htm : f.Temporal) {seen : Nat → Nat → Int} {n t : Nat} {a : Potential K} (ha : Alpha f seen t a) (ht : t < n)
    (hne : NetFile.olds f ≠ [] ∨ total f seen (n - 1) ≠ 0) {g : Logs K} (hg : g.Law) :
    llAfter (some g) (sumOver f.card f.vars (before f t a) (fun _ => 0)) (sumOver f.card f.vars (within f seen t a) (fun _ => 0)) (llSpec f g seen t) =
      llSpec f g seen (t + 1) := by
  by_cases htot : total f seen (t + 1) = 0
  · rw [llAfter_zero hf htm ha (fun h => hne.elim (fun h' => absurd h h') (fun h' => total_prefix_le hf seen (by omega) h')) htot]
    unfold llSpec
    rw [if_pos htot]
  · rw [llAfter_eq hf htm ha htot hg]
    unfold llSpec
    rw [if_neg htot, if_neg (total_prefix hf seen htot), Finset.sum_range_succ]

theorem forward_likelihood {f : NetFile K} (hf : f.Valid) (htm : f.Temporal) {s : Interface} (hs : IsInterface f s) {ts : TimeSeries} (hts : About f ts)
    (marked : Nat → Bool) {g : Logs K} (hg : g.Law) {vars : List Nat} (hvars : ∀ v ∈ vars, v ∈ f.vars) {m : Model K} {w : World K}
    (h : Model.Holds f.net m w) (hi : InterfaceOk f.net m s) (hne : NetFile.olds f ≠ [] ∨ total f (tsSees marked ts) (ts.length - 1) ≠ 0) :
    ∃ results m', forwardInference (some g) s marked ts vars m = ok (results, llSpec f g (tsSees marked ts) ts.length, m') := by
  obtain ⟨a, n1, n2⟩ := newMessage_spec hf htm hs h.sound.card (tsSees marked ts)
  obtain ⟨m1, m2, p1, p2, p3, p4⟩ := h.carries.prepare false
  obtain ⟨st, e1, e2, e3, e4, e5⟩ := loop_inv (n := ts.length) (s := ({ model := m2, alpha := a, results := [], ll := 0 } : Filter K))
    (f := forwardStep (some g) s marked ts vars) (fun t st => Model.Holds f.net st.model (slateOf f.net (decide (0 < t))) ∧ InterfaceOk f.net st.model s ∧
      Alpha f (tsSees marked ts) t st.alpha ∧ st.ll = llSpec f g (tsSees marked ts) t)
    ⟨p4, hi.keep p3.skel, n2, (llSpec_zero f g _).symm⟩
    (by
      rintro t ht st ⟨h1, h2, h3, h4⟩
      obtain ⟨st', g1, g2, g3, g4, _, g6⟩ := forwardStep_spec hf htm hs hts marked (some g) hvars ht h1 h2 h3
      refine ⟨st', g1, g2, g3, g4, ?_⟩
      rw [g6, h4, llSpec_succ hf htm h3 ht hne hg])
  refine ⟨st.results, st.model, ?_⟩
  unfold forwardInference
  rw [n1, ok_bind, p1, ok_bind, p2, ok_bind, e1, ok_bind, e5]

theorem smooth_likelihood {f : NetFile K} (hf : f.Valid) (htm : f.Temporal) {s : Interface} (hs : IsInterface f s) {ts : TimeSeries} (hts : About f ts)
    (marked : Nat → Bool) {g : Logs K} (hg : g.Law) {vars : List Nat} (hvars : ∀ v ∈ vars, v ∈ f.vars) {m : Model K} {w : World K} {T : Asg → K}
    (h : Model.Carries f.net m w T) (hi : InterfaceOk f.net m s) (hne : NetFile.olds f ≠ [] ∨ total f (tsSees marked ts) (ts.length - 1) ≠ 0) :
    ∃ results m', forwardBackward (some g) s marked ts vars m = ok (results, llSpec f g (tsSees marked ts) ts.length, m') := by
  obtain ⟨results, ll, m', r1, _⟩ := smooth_spec hf htm hs hts marked (some g) hvars h hi
  refine ⟨results, m', ?_⟩
  rw [r1]
  congr 2
  congr 1
  obtain ⟨a, n1, n2⟩ := newMessage_spec hf htm hs h.sound.card (tsSees marked ts)
  obtain ⟨m1, m2, p1, p2, p3, p4⟩ := h.prepare false
  have hmail : Mail f (tsSees marked ts) ts.length 0 (List.replicate (ts.length + 1) a) := by
    refine ⟨List.length_replicate, ?_, ?_, fun j _ hj => absurd hj (Nat.not_lt_zero j)⟩
    · intro b hb; rw [(List.mem_replicate.mp hb).2]; exact n2.table
    · intro b hb; rw [(List.mem_replicate.mp hb).2]; exact n2.nonneg
  obtain ⟨st, e1, e2, e3, e4, e5⟩ := loop_inv (n := ts.length) (s := ({ model := m2, messages := List.replicate (ts.length + 1) a, ll := 0 } : Smoother K))
    (f := smoothForward (some g) s marked ts) (fun t st => Model.Holds f.net st.model (slateOf f.net (decide (0 < min t (ts.length - 1)))) ∧
      InterfaceOk f.net st.model s ∧ Mail f (tsSees marked ts) ts.length t st.messages ∧ st.ll = llSpec f g (tsSees marked ts) t)
    ⟨by rw [show decide (0 < min 0 (ts.length - 1)) = false by simp]; exact p4, hi.keep p3.skel, hmail, (llSpec_zero f g _).symm⟩
    (by
      rintro t ht st ⟨h1, h2, h3, h4⟩
      rw [show min t (ts.length - 1) = t by omega] at h1
      obtain ⟨st', a', g1, g2, g3, g4, g5, g6, _⟩ := smoothForward_spec hf htm hs hts marked (some g) ht h1 h2 h3
      refine ⟨st', g1, ?_, g3, g4, ?_⟩
      · rw [show decide (0 < min (t + 1) (ts.length - 1)) = decide (1 < ts.length) from by congr 1; exact propext (by omega)]
        exact g2
      · rw [g6, h4, llSpec_succ hf htm g5 ht hne hg])
  unfold forwardBackward newMessages at r1
  rw [n1] at r1
  simp only [ok_bind] at r1
  rw [p1, ok_bind, p2, ok_bind, e1, ok_bind] at r1
  cases hd : loopDown ts.length (smoothBackward s marked ts vars) (st.model, st.messages, List.replicate ts.length (vars.map (fun v => List.replicate (m2.var v).card (0 : K)))) with
  | ub => rw [hd] at r1; cases r1
  | ok q =>
    rw [hd, ok_bind] at r1
    simp only [ok.injEq, Prod.mk.injEq] at r1
    rw [← r1.2.1, e5]

end Nip
