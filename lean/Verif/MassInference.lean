import Verif.MassAccuracy

/-!
# Inference over time on machines that round, with the log likelihood

Rounds of the loops in tracked numbers.  The masses are not tracked numbers; they are known from `Model.mass_near`.
-/

namespace Nip

open Res Spec

set_option linter.unusedSectionVars false

theorem on_ok_inv {α β : Type} {f : α → β} {x : Res α} {b : β} (h : x.on f = ok b) : ∃ a, x = ok a ∧ f a = b := by
  cases x with
  | ok a => exact ⟨a, rfl, Res.ok.inj h⟩
  | ub => cases h

section
variable {K L : Type} [Zero K] [One K] [Add K] [_root_.Sub K] [Mul K] [Div K] [LinearOrder K] [Zero L] [One L] [Add L] [_root_.Sub L] [Mul L] [Div L] [LinearOrder L]

/-- What a round does to the log likelihood, given the masses before and after the data are entered, `src/nip.c:1267-1282`. -/
def logStep (g : Logs K) (ll : K) (p : K × K) : K := if p.2 = 0 then g.lowest else if 0 < p.1 ∧ 0 < p.2 then ll + (g.log p.2 - g.log p.1) else ll

/-- the part of a round after the data are entered -/
def afterData (s : Interface) (vars : List Nat) (st : Filter K) (m : Model K) (ll : K) : Res (Filter K) := do
  let (row, m) ← posteriors vars m
  let alpha ← startPass s true m st.alpha
  let m ← m.reset
  let m ← m.usePriors true
  ok { model := m, alpha := alpha, results := st.results ++ [row], ll := ll }

theorem forwardStep_parts (lg : Option (Logs K)) (s : Interface) (marked : Nat → Bool) (ts : TimeSeries) (vars : List Nat) (t : Nat) (st : Filter K) :
    forwardStep lg s marked ts vars t st = (do
      let m ← arriveForward s t st.model st.alpha
      let (m, ll) ← absorb lg marked ts t (m, st.ll)
      afterData s vars st m ll) := rfl

theorem on_afterData {φ : K → L} (H : Hom φ) (s : Interface) (vars : List Nat) (st : Filter K) (m : Model K) (ll : K) :
    afterData s vars (Filter.on φ st) (m.on φ) (φ ll) = (afterData s vars st m ll).on (Filter.on φ) := by
  unfold afterData
  refine on_bind (on_posteriors H vars m) fun q => ?_
  refine on_bind (on_startPass H s true q.2 st.alpha) fun a => ?_
  refine on_bind (Model.on_reset H q.2) fun m => ?_
  refine on_bind (Model.on_usePriors H true m) fun m => ?_
  simp [Filter.on]

/-- the log likelihood is passed through -/
theorem afterData_ll {s : Interface} {vars : List Nat} {st : Filter K} {m : Model K} {ll : K} {st' : Filter K} (h : afterData s vars st m ll = ok st') (l l' : K) :
    afterData s vars { st with ll := l } m l' = ok { st' with ll := l' } := by
  unfold afterData at h ⊢
  cases e1 : posteriors vars m with
  | ub => rw [e1] at h; cases h
  | ok q =>
    rw [e1, ok_bind] at h
    rw [ok_bind]
    simp only at h ⊢
    cases e2 : startPass s true q.2 st.alpha with
    | ub => rw [e2] at h; cases h
    | ok a =>
      rw [e2, ok_bind] at h
      rw [ok_bind]
      cases e3 : q.2.reset with
      | ub => rw [e3] at h; cases h
      | ok m1 =>
        rw [e3, ok_bind] at h
        rw [ok_bind]
        cases e4 : m1.usePriors true with
        | ub => rw [e4] at h; cases h
        | ok m2 =>
          rw [e4, ok_bind] at h
          rw [ok_bind, ← Res.ok.inj h]

/-- the part of a round of the forward phase after the data are entered -/
def afterForward (s : Interface) (ts : TimeSeries) (t : Nat) (st : Smoother K) (m : Model K) (ll : K) : Res (Smoother K) := do
  let a ← rd st.messages t
  let a ← startPass s true m a
  let messages ← wr st.messages t a
  let m ← m.reset
  let m ← m.usePriors (decide (1 < ts.length))
  ok { model := m, messages := messages, ll := ll }

theorem smoothForward_parts (lg : Option (Logs K)) (s : Interface) (marked : Nat → Bool) (ts : TimeSeries) (t : Nat) (st : Smoother K) :
    smoothForward lg s marked ts t st = (do
      let m ← arriveStored s t st.model st.messages
      let (m, ll) ← absorb lg marked ts t (m, st.ll)
      afterForward s ts t st m ll) := rfl

theorem on_afterForward {φ : K → L} (H : Hom φ) (s : Interface) (ts : TimeSeries) (t : Nat) (st : Smoother K) (m : Model K) (ll : K) :
    afterForward s ts t (Smoother.on φ st) (m.on φ) (φ ll) = (afterForward s ts t st m ll).on (Smoother.on φ) := by
  unfold afterForward
  refine on_bind (on_rd _ _ _) fun a => ?_
  refine on_bind (on_startPass H s true m a) fun a => ?_
  refine on_bind (on_wr _ _ _ _) fun ms => ?_
  refine on_bind (Model.on_reset H m) fun m => ?_
  exact on_bind (Model.on_usePriors H _ m) fun m => rfl

theorem afterForward_ll {s : Interface} {ts : TimeSeries} {t : Nat} {st : Smoother K} {m : Model K} {ll : K} {st' : Smoother K} (h : afterForward s ts t st m ll = ok st') (l l' : K) :
    afterForward s ts t { st with ll := l } m l' = ok { st' with ll := l' } := by
  unfold afterForward at h ⊢
  cases e1 : rd st.messages t with
  | ub => rw [e1] at h; cases h
  | ok a0 =>
    rw [e1, ok_bind] at h
    rw [ok_bind]
    cases e2 : startPass s true m a0 with
    | ub => rw [e2] at h; cases h
    | ok a =>
      rw [e2, ok_bind] at h
      rw [ok_bind]
      cases e0 : wr st.messages t a with
      | ub => rw [e0] at h; cases h
      | ok ms =>
        rw [e0, ok_bind] at h
        rw [ok_bind]
        cases e3 : m.reset with
        | ub => rw [e3] at h; cases h
        | ok m1 =>
          rw [e3, ok_bind] at h
          rw [ok_bind]
          cases e4 : m1.usePriors (decide (1 < ts.length)) with
          | ub => rw [e4] at h; cases h
          | ok m2 =>
            rw [e4, ok_bind] at h
            rw [ok_bind, ← Res.ok.inj h]

end

variable {K : Type} [Field K] [LinearOrder K] [IsStrictOrderedRing K] {ι : Type} {acc : ι → Accuracy K}

/-- The number `b` differs from `x` by at most a fraction. -/
def Off (q b x : K) : Prop := |b - x| ≤ (q - 1) * x

theorem Off.mono {e : K} (he : 0 ≤ e) {n m : Nat} (h : n ≤ m) {b x : K} (hx : 0 ≤ x) (ho : Off ((1 + e) ^ n) b x) : Off ((1 + e) ^ m) b x :=
  ho.trans (mul_le_mul_of_nonneg_right (pow_sub_one_mono he h) hx)

theorem Off.nonneg {q b x : K} (hq : q < 2) (hx : 0 ≤ x) (h : Off q b x) : 0 ≤ b := by
  have := (abs_le.1 h).1
  nlinarith

theorem Off.pos {q b x : K} (hq : q < 2) (hx : 0 < x) (h : Off q b x) : 0 < b := by
  have := (abs_le.1 h).1
  nlinarith

theorem Off.zero {q b x : K} (hx : x = 0) (h : Off q b x) : b = 0 := by
  unfold Off at h
  rw [hx, mul_zero, sub_zero] at h
  exact abs_nonpos_iff.1 h

/-- **entering the data of a slice, on all machines** -/
theorem absorb_near {f : NetFile K} (hf : f.Valid) {ts : TimeSeries} (hts : About f ts) (marked : Nat → Bool) {t : Nat} (ht : t < ts.length)
    {m : Model (Tracked acc)} {a : Potential K} (hn : ∀ b ∈ a.data, 0 ≤ b) (h : Model.Carries f.net (m.on Tracked.exact) (slateOf f.net (decide (0 < t))) (before f t a)) :
    ∃ (N : Nat) (m' : Model (Tracked acc)), (∀ g ll, ∃ ll', absorb (some g) marked ts t (m.on Tracked.exact, ll) = ok (m'.on Tracked.exact, ll')) ∧
      ∀ A, (acc A).Signed → ∃ b1 b2, Off ((1 + (acc A).e) ^ N) b1 (sumOver f.card f.vars (before f t a) (fun _ => 0)) ∧
        Off ((1 + (acc A).e) ^ N) b2 (sumOver f.card f.vars (within f (tsSees marked ts) t a) (fun _ => 0)) ∧
        (0 ≤ b2 → ∀ g ll, absorb (some g) marked ts t (m.on (Tracked.onMachine A), ll) = ok (m'.on (Tracked.onMachine A), logStep g ll (.num b1, .num b2))) := by
  obtain ⟨m1e, c1, c2, c3, c4⟩ := h.consistent
  rw [Model.on_makeConsistent Tracked.hom_exact] at c1
  obtain ⟨m1, t1, rfl⟩ := on_ok_inv c1
  obtain ⟨N1, m2, p1, p2⟩ := Model.mass_near c3 c4 (fun _ => 0)
  obtain ⟨m2e, d1, d2, d3, d4⟩ := c3.mass c4 (fun _ => 0)
  have hm2 : m2.on Tracked.exact = m2e := by
    have := on_askMass (φ := (Tracked.exact : Tracked acc → K)) m1
    rw [p1] at this
    unfold Model.perform at this
    rw [d1, ok_bind] at this
    exact (Res.ok.inj this).symm
  subst hm2
  obtain ⟨m3e, i1, i2, i3⟩ := d3.insert (net_local hf) hts.wf hts.nodup hts.sub marked (slate_evidence _ _) ht
  have i1' := i1
  rw [on_insertStep Tracked.hom_exact] at i1'
  obtain ⟨⟨c, m3⟩, t3, t3'⟩ := on_ok_inv i1'
  obtain ⟨hc, rfl⟩ := Prod.mk.inj t3'
  obtain ⟨m4e, k1, k2, k3, k4⟩ := i3.consistent
  rw [Model.on_makeConsistent Tracked.hom_exact] at k1
  obtain ⟨m4, t4, rfl⟩ := on_ok_inv k1
  obtain ⟨N2, m5, q1, q2⟩ := Model.mass_near k3 k4 (fun _ => 0)
  obtain ⟨m5e, e1, e2, e3, e4⟩ := k3.mass k4 (fun _ => 0)
  have hm5 : m5.on Tracked.exact = m5e := by
    have := on_askMass (φ := (Tracked.exact : Tracked acc → K)) m4
    rw [q1] at this
    unfold Model.perform at this
    rw [e1, ok_bind] at this
    exact (Res.ok.inj this).symm
  subst hm5
  have hx1 : 0 ≤ sumOver f.net.card f.net.vars (before f t a) (fun _ => 0) := sumOver_nonneg (before_nonneg hf hn) _
  have hx2 : 0 ≤ sumOver f.net.card f.net.vars (within f (tsSees marked ts) t a) (fun _ => 0) := sumOver_nonneg (within_nonneg hf _ hn) _
  refine ⟨max N1 N2, m5, ?_, ?_⟩
  · intro g ll
    refine ⟨if sumOver f.net.card f.net.vars (within f (tsSees marked ts) t a) (fun _ => 0) = 0 then g.lowest
      else if 0 < sumOver f.net.card f.net.vars (before f t a) (fun _ => 0) ∧ 0 < sumOver f.net.card f.net.vars (within f (tsSees marked ts) t a) (fun _ => 0)
        then ll + (g.log (sumOver f.net.card f.net.vars (within f (tsSees marked ts) t a) (fun _ => 0)) - g.log (sumOver f.net.card f.net.vars (before f t a) (fun _ => 0))) else ll, ?_⟩
    unfold absorb
    simp only
    rw [Model.on_makeConsistent Tracked.hom_exact, t1, on_ok, ok_bind, d1, ok_bind]
    simp only
    rw [i1, ok_bind]
    simp only
    rw [Model.on_makeConsistent Tracked.hom_exact, t4, on_ok, ok_bind, e1, ok_bind]
    simp only
    rw [if_pos (by exact hx2)]
    rfl
  · intro A hA
    obtain ⟨b1, f1, f2⟩ := p2 A hA
    obtain ⟨b2, f3, f4⟩ := q2 A hA
    refine ⟨b1, b2, Off.mono (acc A).ok.nonneg (le_max_left _ _) hx1 f2, Off.mono (acc A).ok.nonneg (le_max_right _ _) hx2 f4, fun hb g ll => ?_⟩
    unfold absorb
    simp only
    rw [Model.on_makeConsistent (Tracked.hom_machine A), t1, on_ok, ok_bind, f1, ok_bind]
    simp only
    rw [on_insertStep (Tracked.hom_machine A), t3, on_ok, ok_bind]
    simp only [Prod.map_snd]
    rw [Model.on_makeConsistent (Tracked.hom_machine A), t4, on_ok, ok_bind, f3, ok_bind]
    simp only
    have h0 : (0 : Machine K (acc A).R) ≤ .num b2 := by
      show ((0 : K) : WithBot K) ≤ ((b2 : K) : WithBot K)
      exact_mod_cast hb
    rw [if_pos h0]
    unfold logStep
    congr

/-- what the masses of a round should be -/
def TrueMasses (f : NetFile K) (seen : Nat → Nat → Int) (t : Nat) (x : K × K) : Prop :=
  0 ≤ x.1 ∧ 0 ≤ x.2 ∧ (total f seen (t + 1) ≠ 0 → 0 < x.1 ∧ 0 < x.2 ∧ x.2 / x.1 = f.evidenceProb seen t) ∧ (total f seen (t + 1) = 0 → f.Links → x.2 = 0)

/-- the masses of a round on a machine -/
def OffPair (q : K) (p x : K × K) : Prop := Off q p.1 x.1 ∧ Off q p.2 x.2

theorem off_quotient {q b1 b2 x1 x2 : K} (hq1 : 1 ≤ q) (hq : q < 2) (h1 : 0 < x1) (h2 : 0 < x2) (o1 : Off q b1 x1) (o2 : Off q b2 x2) :
    Within (q / (2 - q)) (b2 / b1) (x2 / x1) := by
  have p1 := o1.pos hq h1
  have p2 := o2.pos hq h2
  obtain ⟨l1, u1⟩ := abs_le.1 o1
  obtain ⟨l2, u2⟩ := abs_le.1 o2
  have hr : 0 < 2 - q := by linarith
  have a1 : b1 ≤ q * x1 := by nlinarith
  have a2 : (2 - q) * x1 ≤ b1 := by nlinarith
  have a3 : b2 ≤ q * x2 := by nlinarith
  have a4 : (2 - q) * x2 ≤ b2 := by nlinarith
  have m1 : b2 * ((2 - q) * x1) ≤ q * x2 * b1 := mul_le_mul a3 a2 (mul_pos hr h1).le (mul_pos (by linarith) h2).le
  have m2 : (2 - q) * x2 * b1 ≤ b2 * (q * x1) := mul_le_mul a4 a1 p1.le p2.le
  constructor
  · rw [div_mul_div_comm, div_le_div_iff₀ p1 (mul_pos h1 hr)]
    nlinarith
  · rw [div_mul_div_comm, div_le_div_iff₀ h1 (mul_pos p1 hr)]
    nlinarith

theorem masses_true {f : NetFile K} (hf : f.Valid) (htm : f.Temporal) {seen : Nat → Nat → Int} {t : Nat} {a : Potential K} (ha : Alpha f seen t a) :
    TrueMasses f seen t (sumOver f.card f.vars (before f t a) (fun _ => 0), sumOver f.card f.vars (within f seen t a) (fun _ => 0)) := by
  refine ⟨sumOver_nonneg (before_nonneg hf ha.nonneg) _, sumOver_nonneg (within_nonneg hf _ ha.nonneg) _, fun htot => ?_, fun htot hl => ?_⟩
  · obtain ⟨c, c1, c2, c3⟩ := masses hf htm ha (fun _ => total_prefix hf seen htot)
    have h2 : 0 < sumOver f.card f.vars (within f seen t a) (fun _ => 0) := by
      rw [c3]; exact mul_pos c1 (lt_of_le_of_ne (total_nonneg hf seen _) (Ne.symm htot))
    refine ⟨mass_before_pos hf ha.nonneg h2.ne', h2, ?_⟩
    simp only
    rw [c2, c3, mul_div_mul_left _ _ c1.ne']
    rfl
  · obtain ⟨c, c1, c2, c3⟩ := masses hf htm ha (fun h => absurd h ((links_olds f).1 hl))
    simp only
    rw [c3, htot, mul_zero]

/-- **one round of forward inference, on all machines** -/
theorem forwardStep_near {f : NetFile K} (hf : f.Valid) (htm : f.Temporal) {s : Interface} (hs : IsInterface f s) {ts : TimeSeries} (hts : About f ts)
    (marked : Nat → Bool) {vars : List Nat} (hvars : ∀ v ∈ vars, v ∈ f.vars) {t : Nat} (ht : t < ts.length) {st : Filter (Tracked acc)}
    (h : Model.Holds f.net (st.model.on Tracked.exact) (slateOf f.net (decide (0 < t)))) (hi : InterfaceOk f.net (st.model.on Tracked.exact) s)
    (ha : Alpha f (tsSees marked ts) t (st.alpha.on Tracked.exact)) :
    ∃ (N : Nat) (x : K × K) (st' : Filter (Tracked acc)), TrueMasses f (tsSees marked ts) t x ∧ Model.Holds f.net (st'.model.on Tracked.exact) (slateOf f.net (decide (0 < t + 1))) ∧
      InterfaceOk f.net (st'.model.on Tracked.exact) s ∧ Alpha f (tsSees marked ts) (t + 1) (st'.alpha.on Tracked.exact) ∧
      (∀ g ll, ∃ ll', forwardStep (some g) s marked ts vars t { Filter.on Tracked.exact st with ll := ll } = ok { Filter.on Tracked.exact st' with ll := ll' }) ∧
      ∀ A, (acc A).Signed → (1 + (acc A).e) ^ N < 2 → ∃ p : K × K, OffPair ((1 + (acc A).e) ^ N) p x ∧
        ∀ g ll, forwardStep (some g) s marked ts vars t { Filter.on (Tracked.onMachine A) st with ll := ll } =
          ok { Filter.on (Tracked.onMachine A) st' with ll := logStep g ll (.num p.1, .num p.2) } := by
  obtain ⟨st1, g1, g2, g3, g4, _⟩ := forwardStep_spec hf htm hs hts marked (some ⟨id, 0⟩) hvars ht (st := Filter.on Tracked.exact st) h hi ha
  have hat : TableOn f.card s.out (st.alpha.on Tracked.exact) := by rw [hs.out]; exact ha.table
  obtain ⟨m1e, a1, a2, a3⟩ := arrive hs h hi hat ha.nonneg
  rw [on_arriveForward Tracked.hom_exact] at a1
  obtain ⟨m1, t1, rfl⟩ := on_ok_inv a1
  obtain ⟨N, m2, b1, b2⟩ := absorb_near hf hts marked ht ha.nonneg a3
  have arr : ∀ {L : Type} [Zero L] [One L] [Add L] [_root_.Sub L] [Mul L] [Div L] [LinearOrder L] {φ : Tracked acc → L} (_ : Hom φ) (ll : L),
      arriveForward s t ({ Filter.on φ st with ll := ll } : Filter L).model ({ Filter.on φ st with ll := ll } : Filter L).alpha = ok (m1.on φ) := by
    intro L _ _ _ _ _ _ _ φ H ll
    show arriveForward s t (st.model.on φ) (st.alpha.on φ) = _
    rw [on_arriveForward H, t1]
    rfl
  have hst1 : ∃ l, afterData s vars (Filter.on Tracked.exact st) (m2.on Tracked.exact) l = ok st1 := by
    obtain ⟨l, hl⟩ := b1 ⟨id, 0⟩ (Filter.on Tracked.exact st).ll
    refine ⟨l, ?_⟩
    have e := arr Tracked.hom_exact (Filter.on Tracked.exact st).ll
    rw [forwardStep_parts] at g1
    rw [show arriveForward s t (Filter.on Tracked.exact st).model (Filter.on Tracked.exact st).alpha = _ from e, ok_bind, hl, ok_bind] at g1
    exact g1
  obtain ⟨l, hl⟩ := hst1
  have hl0 := afterData_ll hl (Filter.on Tracked.exact st).ll 0
  have hom := on_afterData Tracked.hom_exact s vars st m2 0
  have hl1 : afterData s vars (Filter.on Tracked.exact st) (m2.on Tracked.exact) ((0 : Tracked acc).exact) = ok { st1 with ll := 0 } := hl0
  rw [hl1] at hom
  obtain ⟨st', t2, t3⟩ := on_ok_inv hom.symm
  have e1 : st'.model.on Tracked.exact = st1.model := congrArg Filter.model t3
  have e2 : st'.alpha.on Tracked.exact = st1.alpha := congrArg Filter.alpha t3
  refine ⟨N, _, st', masses_true hf htm ha, by rw [e1]; exact g2, by rw [e1]; exact g3, by rw [e2]; exact g4, ?_, ?_⟩
  · intro g ll
    obtain ⟨l', hl'⟩ := b1 g ll
    refine ⟨l', ?_⟩
    rw [forwardStep_parts, arr Tracked.hom_exact ll, ok_bind]
    simp only
    rw [hl', ok_bind]
    simp only
    rw [t3]
    exact afterData_ll hl ll l'
  · intro A hA hN
    obtain ⟨x1, x2, o1, o2, o3⟩ := b2 A hA
    refine ⟨(x1, x2), ⟨o1, o2⟩, fun g ll => ?_⟩
    rw [forwardStep_parts, arr (Tracked.hom_machine A) ll, ok_bind]
    simp only
    rw [o3 (o2.nonneg hN (masses_true hf htm ha).2.1) g ll, ok_bind]
    simp only
    have := on_afterData (Tracked.hom_machine A) s vars st m2 0
    rw [t2] at this
    exact afterData_ll this ll _

/-- the log likelihood calculated from masses -/
def logOf {R : Rounding K} (g : Logs (Machine K R)) (ll : Machine K R) (ps : List (K × K)) : Machine K R := (ps.map (fun p => (Machine.num p.1, Machine.num p.2))).foldl (logStep g) ll

theorem logOf_append {R : Rounding K} (g : Logs (Machine K R)) (ll : Machine K R) (ps : List (K × K)) (p : K × K) :
    logOf g ll (ps ++ [p]) = logStep g (logOf g ll ps) (.num p.1, .num p.2) := by
  simp [logOf]

theorem true_append {f : NetFile K} {seen : Nat → Nat → Int} {xs : List (K × K)} {x : K × K} (hxs : ∀ t x, xs[t]? = some x → TrueMasses f seen t x)
    (hx : TrueMasses f seen xs.length x) : ∀ t x', (xs ++ [x])[t]? = some x' → TrueMasses f seen t x' := by
  intro t x' ht
  by_cases hlt : t < xs.length
  · rw [List.getElem?_append_left hlt] at ht
    exact hxs t x' ht
  · rw [List.getElem?_append_right (by omega)] at ht
    have h0 : t - xs.length = 0 := by
      by_contra hne
      rw [List.getElem?_eq_none (by simp; omega)] at ht
      cases ht
    rw [h0] at ht
    simp only [List.getElem?_cons_zero, Option.some.injEq] at ht
    rw [← ht, show t = xs.length by omega]
    exact hx

theorem OffPair.mono {e : K} (he : 0 ≤ e) {n m : Nat} (h : n ≤ m) {p x : K × K} (hx : 0 ≤ x.1 ∧ 0 ≤ x.2) (ho : OffPair ((1 + e) ^ n) p x) : OffPair ((1 + e) ^ m) p x :=
  ⟨ho.1.mono he h hx.1, ho.2.mono he h hx.2⟩

theorem offs_mono {e : K} (he : 0 ≤ e) {n m : Nat} (h : n ≤ m) {ps xs : List (K × K)} (hx : ∀ x ∈ xs, 0 ≤ x.1 ∧ 0 ≤ x.2) (ho : List.Forall₂ (OffPair ((1 + e) ^ n)) ps xs) :
    List.Forall₂ (OffPair ((1 + e) ^ m)) ps xs := by
  induction ho with
  | nil => exact .nil
  | cons h1 _ ih => exact .cons (h1.mono he h (hx _ List.mem_cons_self)) (ih fun x hm => hx x (List.mem_cons_of_mem _ hm))

theorem true_nonneg {f : NetFile K} {seen : Nat → Nat → Int} {xs : List (K × K)} (hxs : ∀ t x, xs[t]? = some x → TrueMasses f seen t x) : ∀ x ∈ xs, 0 ≤ x.1 ∧ 0 ≤ x.2 := by
  intro x hx
  obtain ⟨t, ht⟩ := List.getElem?_of_mem hx
  exact ⟨(hxs t x ht).1, (hxs t x ht).2.1⟩

theorem Accuracy.one_le_e (A : Accuracy K) (N : Nat) : 1 ≤ (1 + A.e) ^ N := one_le_pow₀ (by linarith [A.ok.nonneg])

theorem Accuracy.pow_le (A : Accuracy K) {N M : Nat} (h : N ≤ M) : (1 + A.e) ^ N ≤ (1 + A.e) ^ M := pow_le_pow_right₀ (by linarith [A.ok.nonneg]) h

/-- **rounds of forward inference, on all machines** -/
theorem forwardSteps_near {f : NetFile K} (hf : f.Valid) (htm : f.Temporal) {s : Interface} (hs : IsInterface f s) {ts : TimeSeries} (hts : About f ts)
    (marked : Nat → Bool) {vars : List Nat} (hvars : ∀ v ∈ vars, v ∈ f.vars) {st : Filter (Tracked acc)}
    (h : Model.Holds f.net (st.model.on Tracked.exact) (slateOf f.net (decide (0 < 0)))) (hi : InterfaceOk f.net (st.model.on Tracked.exact) s)
    (ha : Alpha f (tsSees marked ts) 0 (st.alpha.on Tracked.exact)) : ∀ {n : Nat}, n ≤ ts.length →
    ∃ (N : Nat) (xs : List (K × K)) (st' : Filter (Tracked acc)), xs.length = n ∧ (∀ t x, xs[t]? = some x → TrueMasses f (tsSees marked ts) t x) ∧
      Model.Holds f.net (st'.model.on Tracked.exact) (slateOf f.net (decide (0 < n))) ∧
      InterfaceOk f.net (st'.model.on Tracked.exact) s ∧ Alpha f (tsSees marked ts) n (st'.alpha.on Tracked.exact) ∧
      (∀ g ll, ∃ ll', loop n (forwardStep (some g) s marked ts vars) { Filter.on Tracked.exact st with ll := ll } = ok { Filter.on Tracked.exact st' with ll := ll' }) ∧
      ∀ A, (acc A).Signed → (1 + (acc A).e) ^ N < 2 → ∃ ps : List (K × K), List.Forall₂ (OffPair ((1 + (acc A).e) ^ N)) ps xs ∧
        ∀ g ll, loop n (forwardStep (some g) s marked ts vars) { Filter.on (Tracked.onMachine A) st with ll := ll } =
          ok { Filter.on (Tracked.onMachine A) st' with ll := logOf g ll ps } := by
  intro n
  induction n with
  | zero =>
    intro _
    exact ⟨0, [], st, rfl, by simp, h, hi, ha, fun g ll => ⟨ll, rfl⟩, fun A _ _ => ⟨[], .nil, fun g ll => rfl⟩⟩
  | succ n ih =>
    intro hn
    obtain ⟨N, xs, st1, l1, l2, i1, i2, i3, i4, i5⟩ := ih (by omega)
    obtain ⟨M, x, st2, l3, j1, j2, j3, j4, j5⟩ := forwardStep_near hf htm hs hts marked hvars (show n < ts.length by omega) i1 i2 i3
    refine ⟨max N M, xs ++ [x], st2, by rw [List.length_append, l1]; rfl, true_append l2 (by rw [l1]; exact l3), j1, j2, j3, fun g ll => ?_, fun A hA hN => ?_⟩
    · obtain ⟨l1, e1⟩ := i4 g ll
      obtain ⟨l2, e2⟩ := j4 g l1
      refine ⟨l2, ?_⟩
      rw [loop_succ, e1]
      exact e2
    · have hq1 := (acc A).pow_le (le_max_left N M)
      have hq2 := (acc A).pow_le (le_max_right N M)
      obtain ⟨ps, p2, p3⟩ := i5 A hA (lt_of_le_of_lt hq1 hN)
      obtain ⟨p, r1, r2⟩ := j5 A hA (lt_of_le_of_lt hq2 hN)
      refine ⟨ps ++ [p], List.rel_append (offs_mono (acc A).ok.nonneg (le_max_left _ _) (true_nonneg l2) p2)
        (.cons (r1.mono (acc A).ok.nonneg (le_max_right _ _) ⟨l3.1, l3.2.1⟩) .nil), fun g ll => ?_⟩
      rw [loop_succ, p3 g ll, logOf_append]
      exact r2 g _

/-- **forward inference with the likelihood, on all machines** -/
theorem forwardInference_near {f : NetFile K} (hf : f.Valid) (htm : f.Temporal) {s : Interface} (hs : IsInterface f s) {ts : TimeSeries} (hts : About f ts)
    (marked : Nat → Bool) {vars : List Nat} (hvars : ∀ v ∈ vars, v ∈ f.vars) {m : Model (Tracked acc)} {w : World K}
    (h : Model.Holds f.net (m.on Tracked.exact) w) (hi : InterfaceOk f.net (m.on Tracked.exact) s) :
    ∃ (N : Nat) (xs : List (K × K)) (rt : List (List (List (Tracked acc)))) (mt : Model (Tracked acc)), xs.length = ts.length ∧
      (∀ t x, xs[t]? = some x → TrueMasses f (tsSees marked ts) t x) ∧
      (∀ g, ∃ ll, forwardInference (some g) s marked ts vars (m.on Tracked.exact) = ok (rt.map (List.map (List.map Tracked.exact)), ll, mt.on Tracked.exact)) ∧
      ∀ A, (acc A).Signed → (1 + (acc A).e) ^ N < 2 → ∃ ps : List (K × K), List.Forall₂ (OffPair ((1 + (acc A).e) ^ N)) ps xs ∧
        ∀ g, forwardInference (some g) s marked ts vars (m.on (Tracked.onMachine A)) = ok (rt.map (List.map (List.map (Tracked.onMachine A))), logOf g 0 ps, mt.on (Tracked.onMachine A)) := by
  obtain ⟨ae, n1, n2⟩ := newMessage_spec hf htm hs h.sound.card (tsSees marked ts)
  rw [on_newMessage Tracked.hom_exact] at n1
  obtain ⟨a, ta, rfl⟩ := on_ok_inv n1
  obtain ⟨m1e, m2e, p1, p2, p3, p4⟩ := h.carries.prepare false
  rw [Model.on_reset Tracked.hom_exact] at p1
  obtain ⟨m1, t1, rfl⟩ := on_ok_inv p1
  rw [Model.on_usePriors Tracked.hom_exact] at p2
  obtain ⟨m2, t2, rfl⟩ := on_ok_inv p2
  obtain ⟨N, xs, st', l1, l2, i1, i2, i3, i4, i5⟩ := forwardSteps_near hf htm hs hts marked hvars (st := { model := m2, alpha := a, results := [], ll := 0 }) p4 (hi.keep p3.skel) n2 (le_refl ts.length)
  refine ⟨N, xs, st'.results, st'.model, l1, l2, fun g => ?_, fun A hA hN => ?_⟩
  · obtain ⟨ll, e⟩ := i4 g 0
    refine ⟨ll, ?_⟩
    unfold forwardInference
    rw [on_newMessage Tracked.hom_exact, ta, on_ok, ok_bind, Model.on_reset Tracked.hom_exact, t1, on_ok, ok_bind, Model.on_usePriors Tracked.hom_exact, t2, on_ok, ok_bind]
    have e' : loop ts.length (forwardStep (some g) s marked ts vars) ({ model := m2.on Tracked.exact, alpha := a.on Tracked.exact, results := [], ll := 0 } : Filter K) = _ := e
    rw [e', ok_bind]
    rfl
  · obtain ⟨ps, e1, e3⟩ := i5 A hA hN
    refine ⟨ps, e1, fun g => ?_⟩
    have e := e3 g 0
    unfold forwardInference
    rw [on_newMessage (Tracked.hom_machine A), ta, on_ok, ok_bind, Model.on_reset (Tracked.hom_machine A), t1, on_ok, ok_bind, Model.on_usePriors (Tracked.hom_machine A), t2, on_ok, ok_bind]
    have e' : loop ts.length (forwardStep (some g) s marked ts vars)
      ({ model := m2.on (Tracked.onMachine A), alpha := a.on (Tracked.onMachine A), results := [], ll := 0 } : Filter (Machine K (acc A).R)) = _ := e
    rw [e', ok_bind]
    rfl

/-- **one round of the forward phase of forward-backward inference, on all machines** -/
theorem smoothForward_near {f : NetFile K} (hf : f.Valid) (htm : f.Temporal) {s : Interface} (hs : IsInterface f s) {ts : TimeSeries} (hts : About f ts)
    (marked : Nat → Bool) {t : Nat} (ht : t < ts.length) {st : Smoother (Tracked acc)}
    (h : Model.Holds f.net (st.model.on Tracked.exact) (slateOf f.net (decide (0 < t)))) (hi : InterfaceOk f.net (st.model.on Tracked.exact) s)
    (hm : Mail f (tsSees marked ts) ts.length t (st.messages.map (Potential.on Tracked.exact))) :
    ∃ (N : Nat) (x : K × K) (st' : Smoother (Tracked acc)), TrueMasses f (tsSees marked ts) t x ∧ Model.Holds f.net (st'.model.on Tracked.exact) (slateOf f.net (decide (1 < ts.length))) ∧
      InterfaceOk f.net (st'.model.on Tracked.exact) s ∧ Mail f (tsSees marked ts) ts.length (t + 1) (st'.messages.map (Potential.on Tracked.exact)) ∧
      (∀ g ll, ∃ ll', smoothForward (some g) s marked ts t { Smoother.on Tracked.exact st with ll := ll } = ok { Smoother.on Tracked.exact st' with ll := ll' }) ∧
      ∀ A, (acc A).Signed → (1 + (acc A).e) ^ N < 2 → ∃ p : K × K, OffPair ((1 + (acc A).e) ^ N) p x ∧
        ∀ g ll, smoothForward (some g) s marked ts t { Smoother.on (Tracked.onMachine A) st with ll := ll } =
          ok { Smoother.on (Tracked.onMachine A) st' with ll := logStep g ll (.num p.1, .num p.2) } := by
  obtain ⟨st1, _, g1, g2, g3, g4, _⟩ := smoothForward_spec hf htm hs hts marked (some ⟨id, 0⟩) ht (st := Smoother.on Tracked.exact st) h hi hm
  obtain ⟨a, _, ha, har⟩ := hm.read (le_refl t) ht
  have hat : TableOn f.card s.out a := by rw [hs.out]; exact ha.table
  obtain ⟨m1e, a1, a2, a3⟩ := arrive hs h hi hat ha.nonneg
  rw [← har, on_arriveStored Tracked.hom_exact] at a1
  obtain ⟨m1, t1, rfl⟩ := on_ok_inv a1
  obtain ⟨N, m2, b1, b2⟩ := absorb_near hf hts marked ht ha.nonneg a3
  have arr : ∀ {L : Type} [Zero L] [One L] [Add L] [_root_.Sub L] [Mul L] [Div L] [LinearOrder L] {φ : Tracked acc → L} (_ : Hom φ) (ll : L),
      arriveStored s t ({ Smoother.on φ st with ll := ll } : Smoother L).model ({ Smoother.on φ st with ll := ll } : Smoother L).messages = ok (m1.on φ) := by
    intro L _ _ _ _ _ _ _ φ H ll
    show arriveStored s t (st.model.on φ) (st.messages.map (Potential.on φ)) = _
    rw [on_arriveStored H, t1]
    rfl
  have hst1 : ∃ l, afterForward s ts t (Smoother.on Tracked.exact st) (m2.on Tracked.exact) l = ok st1 := by
    obtain ⟨l, hl⟩ := b1 ⟨id, 0⟩ (Smoother.on Tracked.exact st).ll
    refine ⟨l, ?_⟩
    have e := arr Tracked.hom_exact (Smoother.on Tracked.exact st).ll
    rw [smoothForward_parts] at g1
    rw [show arriveStored s t (Smoother.on Tracked.exact st).model (Smoother.on Tracked.exact st).messages = _ from e, ok_bind, hl, ok_bind] at g1
    exact g1
  obtain ⟨l, hl⟩ := hst1
  have hl0 := afterForward_ll hl (Smoother.on Tracked.exact st).ll 0
  have hom := on_afterForward Tracked.hom_exact s ts t st m2 0
  have hl1 : afterForward s ts t (Smoother.on Tracked.exact st) (m2.on Tracked.exact) ((0 : Tracked acc).exact) = ok { st1 with ll := 0 } := hl0
  rw [hl1] at hom
  obtain ⟨st', t2, t3⟩ := on_ok_inv hom.symm
  have e1 : st'.model.on Tracked.exact = st1.model := congrArg Smoother.model t3
  have e2 : st'.messages.map (Potential.on Tracked.exact) = st1.messages := congrArg Smoother.messages t3
  refine ⟨N, _, st', masses_true hf htm ha, by rw [e1]; exact g2, by rw [e1]; exact g3, by rw [e2]; exact g4, ?_, ?_⟩
  · intro g ll
    obtain ⟨l', hl'⟩ := b1 g ll
    refine ⟨l', ?_⟩
    rw [smoothForward_parts, arr Tracked.hom_exact ll, ok_bind]
    simp only
    rw [hl', ok_bind]
    simp only
    rw [t3]
    exact afterForward_ll hl ll l'
  · intro A hA hN
    obtain ⟨x1, x2, o1, o2, o3⟩ := b2 A hA
    refine ⟨(x1, x2), ⟨o1, o2⟩, fun g ll => ?_⟩
    rw [smoothForward_parts, arr (Tracked.hom_machine A) ll, ok_bind]
    simp only
    rw [o3 (o2.nonneg hN (masses_true hf htm ha).2.1) g ll, ok_bind]
    simp only
    have := on_afterForward (Tracked.hom_machine A) s ts t st m2 0
    rw [t2] at this
    exact afterForward_ll this ll _

/-- **the forward phase, on all machines** -/
theorem smoothForwards_near {f : NetFile K} (hf : f.Valid) (htm : f.Temporal) {s : Interface} (hs : IsInterface f s) {ts : TimeSeries} (hts : About f ts)
    (marked : Nat → Bool) {st : Smoother (Tracked acc)}
    (h : Model.Holds f.net (st.model.on Tracked.exact) (slateOf f.net false)) (hi : InterfaceOk f.net (st.model.on Tracked.exact) s)
    (hm : Mail f (tsSees marked ts) ts.length 0 (st.messages.map (Potential.on Tracked.exact))) : ∀ {n : Nat}, n ≤ ts.length →
    ∃ (N : Nat) (xs : List (K × K)) (st' : Smoother (Tracked acc)), xs.length = n ∧ (∀ t x, xs[t]? = some x → TrueMasses f (tsSees marked ts) t x) ∧
      Model.Holds f.net (st'.model.on Tracked.exact) (slateOf f.net (decide (0 < min n (ts.length - 1)))) ∧
      InterfaceOk f.net (st'.model.on Tracked.exact) s ∧ Mail f (tsSees marked ts) ts.length n (st'.messages.map (Potential.on Tracked.exact)) ∧
      (∀ g ll, ∃ ll', loop n (smoothForward (some g) s marked ts) { Smoother.on Tracked.exact st with ll := ll } = ok { Smoother.on Tracked.exact st' with ll := ll' }) ∧
      ∀ A, (acc A).Signed → (1 + (acc A).e) ^ N < 2 → ∃ ps : List (K × K), List.Forall₂ (OffPair ((1 + (acc A).e) ^ N)) ps xs ∧
        ∀ g ll, loop n (smoothForward (some g) s marked ts) { Smoother.on (Tracked.onMachine A) st with ll := ll } =
          ok { Smoother.on (Tracked.onMachine A) st' with ll := logOf g ll ps } := by
  intro n
  induction n with
  | zero =>
    intro _
    exact ⟨0, [], st, rfl, by simp, by rw [show decide (0 < min 0 (ts.length - 1)) = false by simp]; exact h, hi, hm, fun g ll => ⟨ll, rfl⟩, fun A _ _ => ⟨[], .nil, fun g ll => rfl⟩⟩
  | succ n ih =>
    intro hn
    obtain ⟨N, xs, st1, l1, l2, i1, i2, i3, i4, i5⟩ := ih (by omega)
    rw [show min n (ts.length - 1) = n by omega] at i1
    obtain ⟨M, x, st2, l3, j1, j2, j3, j4, j5⟩ := smoothForward_near hf htm hs hts marked (show n < ts.length by omega) i1 i2 i3
    refine ⟨max N M, xs ++ [x], st2, by rw [List.length_append, l1]; rfl, true_append l2 (by rw [l1]; exact l3), ?_, j2, j3, fun g ll => ?_, fun A hA hN => ?_⟩
    · rw [show decide (0 < min (n + 1) (ts.length - 1)) = decide (1 < ts.length) from by congr 1; exact propext (by omega)]
      exact j1
    · obtain ⟨l1, e1⟩ := i4 g ll
      obtain ⟨l2, e2⟩ := j4 g l1
      refine ⟨l2, ?_⟩
      rw [loop_succ, e1]
      exact e2
    · have hq1 := (acc A).pow_le (le_max_left N M)
      have hq2 := (acc A).pow_le (le_max_right N M)
      obtain ⟨ps, p2, p3⟩ := i5 A hA (lt_of_le_of_lt hq1 hN)
      obtain ⟨p, r1, r2⟩ := j5 A hA (lt_of_le_of_lt hq2 hN)
      refine ⟨ps ++ [p], List.rel_append (offs_mono (acc A).ok.nonneg (le_max_left _ _) (true_nonneg l2) p2)
        (.cons (r1.mono (acc A).ok.nonneg (le_max_right _ _) ⟨l3.1, l3.2.1⟩) .nil), fun g ll => ?_⟩
      rw [loop_succ, p3 g ll, logOf_append]
      exact r2 g _

section
variable {F L : Type} [Zero F] [One F] [Add F] [_root_.Sub F] [Mul F] [Div F] [LinearOrder F] [Zero L] [One L] [Add L] [_root_.Sub L] [Mul L] [Div L] [LinearOrder L]

/-- the backward phase -/
def backwards (s : Interface) (marked : Nat → Bool) (ts : TimeSeries) (vars : List Nat) (m0 m : Model F) (messages : List (Potential F)) :
    Res (Model F × List (Potential F) × List (List (List F))) :=
  loopDown ts.length (smoothBackward s marked ts vars) (m, messages, List.replicate ts.length (vars.map (fun v => List.replicate (m0.var v).card (0 : F))))

theorem forwardBackward_parts (lg : Option (Logs F)) (s : Interface) (marked : Nat → Bool) (ts : TimeSeries) (vars : List Nat) (m : Model F) :
    forwardBackward lg s marked ts vars m = (do
      let messages ← newMessages s m ts.length
      let m ← m.reset
      let m ← m.usePriors false
      let st ← loop ts.length (smoothForward lg s marked ts) { model := m, messages := messages, ll := 0 }
      let (m, _, results) ← backwards s marked ts vars m st.model st.messages
      ok (results, st.ll, m)) := rfl

theorem on_backwards {φ : F → L} (H : Hom φ) (s : Interface) (marked : Nat → Bool) (ts : TimeSeries) (vars : List Nat) (m0 m : Model F) (messages : List (Potential F)) :
    backwards s marked ts vars (m0.on φ) (m.on φ) (messages.map (Potential.on φ)) =
      (backwards s marked ts vars m0 m messages).on (fun r => (r.1.on φ, r.2.1.map (Potential.on φ), r.2.2.map (List.map (List.map φ)))) :=
  on_loopDown (by simp [H.zero, Model.on, VarRec.on]) fun t st => on_smoothBackward H s marked ts vars t st

theorem on_newMessages {φ : F → L} (H : Hom φ) (s : Interface) (m : Model F) (n : Nat) : newMessages s (m.on φ) n = (newMessages s m n).on (List.map (Potential.on φ)) :=
  on_bind (on_newMessage H s m) fun p => by simp

end

/-- **forward-backward inference with the likelihood, on all machines** -/
theorem forwardBackward_near {f : NetFile K} (hf : f.Valid) (htm : f.Temporal) {s : Interface} (hs : IsInterface f s) {ts : TimeSeries} (hts : About f ts)
    (marked : Nat → Bool) {vars : List Nat} (hvars : ∀ v ∈ vars, v ∈ f.vars) {m : Model (Tracked acc)} {w : World K}
    (h : Model.Holds f.net (m.on Tracked.exact) w) (hi : InterfaceOk f.net (m.on Tracked.exact) s) :
    ∃ (N : Nat) (xs : List (K × K)) (rt : List (List (List (Tracked acc)))) (mt : Model (Tracked acc)), xs.length = ts.length ∧
      (∀ t x, xs[t]? = some x → TrueMasses f (tsSees marked ts) t x) ∧
      (∀ g, ∃ ll, forwardBackward (some g) s marked ts vars (m.on Tracked.exact) = ok (rt.map (List.map (List.map Tracked.exact)), ll, mt.on Tracked.exact)) ∧
      ∀ A, (acc A).Signed → (1 + (acc A).e) ^ N < 2 → ∃ ps : List (K × K), List.Forall₂ (OffPair ((1 + (acc A).e) ^ N)) ps xs ∧
        ∀ g, forwardBackward (some g) s marked ts vars (m.on (Tracked.onMachine A)) = ok (rt.map (List.map (List.map (Tracked.onMachine A))), logOf g 0 ps, mt.on (Tracked.onMachine A)) := by
  obtain ⟨ae, n1, n2⟩ := newMessage_spec hf htm hs h.sound.card (tsSees marked ts)
  rw [on_newMessage Tracked.hom_exact] at n1
  obtain ⟨a, ta, rfl⟩ := on_ok_inv n1
  have tm : newMessages s m ts.length = ok (List.replicate (ts.length + 1) a) := by
    unfold newMessages
    rw [ta, ok_bind]
  obtain ⟨m1e, m2e, p1, p2, p3, p4⟩ := h.carries.prepare false
  rw [Model.on_reset Tracked.hom_exact] at p1
  obtain ⟨m1, t1, rfl⟩ := on_ok_inv p1
  rw [Model.on_usePriors Tracked.hom_exact] at p2
  obtain ⟨m2, t2, rfl⟩ := on_ok_inv p2
  have hmail : Mail f (tsSees marked ts) ts.length 0 ((List.replicate (ts.length + 1) a).map (Potential.on Tracked.exact)) := by
    rw [List.map_replicate]
    refine ⟨List.length_replicate, ?_, ?_, fun j _ hj => absurd hj (Nat.not_lt_zero j)⟩
    · intro b hb; rw [(List.mem_replicate.mp hb).2]; exact n2.table
    · intro b hb; rw [(List.mem_replicate.mp hb).2]; exact n2.nonneg
  obtain ⟨N, xs, st', l1, l2, i1, i2, i3, i4, i5⟩ := smoothForwards_near hf htm hs hts marked (st := { model := m2, messages := List.replicate (ts.length + 1) a, ll := 0 }) p4
    (hi.keep p3.skel) hmail (le_refl ts.length)
  have hexact : ∀ g, ∃ ll, forwardBackward (some g) s marked ts vars (m.on Tracked.exact) = (do
      let (m, _, results) ← backwards s marked ts vars (m2.on Tracked.exact) (st'.model.on Tracked.exact) (st'.messages.map (Potential.on Tracked.exact))
      ok (results, ll, m)) := by
    intro g
    obtain ⟨ll, e⟩ := i4 g 0
    refine ⟨ll, ?_⟩
    rw [forwardBackward_parts, on_newMessages Tracked.hom_exact, tm, on_ok, ok_bind, Model.on_reset Tracked.hom_exact, t1, on_ok, ok_bind, Model.on_usePriors Tracked.hom_exact, t2, on_ok, ok_bind]
    have e' : loop ts.length (smoothForward (some g) s marked ts)
      ({ model := m2.on Tracked.exact, messages := (List.replicate (ts.length + 1) a).map (Potential.on Tracked.exact), ll := 0 } : Smoother K) = _ := e
    rw [e', ok_bind]
    rfl
  have hback : ∃ b, backwards s marked ts vars m2 st'.model st'.messages = ok b := by
    obtain ⟨_, _, _, e1, _⟩ := smooth_all hf htm hs hts marked (some ⟨id, 0⟩) hvars h.carries hi
    obtain ⟨ll, e2⟩ := hexact ⟨id, 0⟩
    rw [e2, on_backwards Tracked.hom_exact] at e1
    cases e : backwards s marked ts vars m2 st'.model st'.messages with
    | ok b => exact ⟨b, rfl⟩
    | ub => rw [e] at e1; cases e1
  obtain ⟨⟨mt, mst, rt⟩, tb⟩ := hback
  refine ⟨N, xs, rt, mt, l1, l2, fun g => ?_, fun A hA hN => ?_⟩
  · obtain ⟨ll, e⟩ := hexact g
    refine ⟨ll, ?_⟩
    rw [e, on_backwards Tracked.hom_exact, tb]
    rfl
  · obtain ⟨ps, e1, e3⟩ := i5 A hA hN
    refine ⟨ps, e1, fun g => ?_⟩
    have e := e3 g 0
    rw [forwardBackward_parts, on_newMessages (Tracked.hom_machine A), tm, on_ok, ok_bind, Model.on_reset (Tracked.hom_machine A), t1, on_ok, ok_bind, Model.on_usePriors (Tracked.hom_machine A), t2, on_ok, ok_bind]
    have e' : loop ts.length (smoothForward (some g) s marked ts)
      ({ model := m2.on (Tracked.onMachine A), messages := (List.replicate (ts.length + 1) a).map (Potential.on (Tracked.onMachine A)), ll := 0 } : Smoother (Machine K (acc A).R)) = _ := e
    rw [e', ok_bind]
    have := on_backwards (Tracked.hom_machine A) s marked ts vars m2 st'.model st'.messages
    rw [tb] at this
    show (do
      let (m, _, results) ← backwards s marked ts vars (m2.on (Tracked.onMachine A)) (st'.model.on (Tracked.onMachine A)) (st'.messages.map (Potential.on (Tracked.onMachine A)))
      ok (results, _, m)) = _
    rw [this]
    rfl

end Nip
