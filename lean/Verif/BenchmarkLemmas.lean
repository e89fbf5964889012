import Verif.Benchmark
import Verif.Spec.Benchmark
import Verif.TrainFiles

/-! # Lemmas for C94: leaving one series out, marks, and learning for one series -/

namespace Nip

open Res Spec Model Props

set_option linter.unusedSectionVars false
set_option synthInstance.maxSize 1000

variable {K : Type} [Field K] [LinearOrder K] [IsStrictOrderedRing K]

/-! ### possible data in a network made of positive counts -/

theorem visible_iff (f : NetFile K) (seen : Nat → Int) {x : Asg} (hx : Legal f.card f.vars x) :
    visible f seen x ≠ 0 ↔ ∀ v ∈ f.vars, 0 ≤ seen v → (x v : Int) = seen v := by
  unfold visible
  rw [Ne, List.prod_eq_zero_iff, List.mem_map]
  push Not
  refine forall₂_congr fun v hv => ?_
  unfold vision
  by_cases h0 : seen v < 0
  · rw [if_pos h0, List.getD_eq_getElem _ _ (by simpa using hx v hv)]
    simp [h0]
  · rw [if_neg h0, List.getD_eq_getElem _ _ (by simpa [indicator] using hx v hv)]
    simp [indicator]
    omega

theorem relearn_slice_ne {f : NetFile K} (hf : f.Valid) {c : Nat → List Nat → K} (hc : ∀ v cell, 0 < c v cell) (seen : Nat → Nat → Int) (t : Nat) {x : Asg}
    (hx : Legal f.card f.vars x) : slice (f.relearn c) seen t x ≠ 0 ↔ visible f (seen t) x ≠ 0 := by
  classical
  have hval := relearn_valid hf (count := c) (fun v cell => (hc v cell).le)
  unfold slice NetFile.sliceWeight weightOf
  have h1 : (f.relearn c).net.tables x ≠ 0 := by
    rw [(net_local hval).tables x (wrap f.card x) (fun v hv => (Nat.mod_eq_of_lt (hx v hv)).symm), relearn_tables hf]
    refine (List.prod_pos fun a ha => ?_).ne'
    obtain ⟨v, hv, rfl⟩ := List.mem_map.1 ha
    rw [cell_legal hf (List.mem_filter.mp hv).1 hx]
    exact theta_pos hf hc (List.mem_filter.mp hv).1 x
  show _ * _ * visible f (seen t) x ≠ 0 ↔ _
  rw [mul_ne_zero_iff, mul_ne_zero_iff]
  refine ⟨fun h => h.2, fun h => ⟨⟨h1, ?_⟩, h⟩⟩
  rw [Ne, List.prod_eq_zero_iff, List.mem_map]
  rintro ⟨v, hv, hz⟩
  rw [relearn_roots hf] at hv
  obtain ⟨hvm, hg⟩ := List.mem_filter.mp hv
  rw [decide_eq_true_eq, ← parentsOf_nil hf, ← givens_eq] at hg
  split at hz
  · rw [relearn_prior hf c hvm hg, List.getD_eq_getElem _ _ (by simpa using hx v hvm)] at hz
    have hcell : f.cell v x = [x v] := by unfold NetFile.cell; rw [hg]; rfl
    have := theta_pos hf hc hvm x
    unfold theta at this
    rw [hcell] at this
    simp at hz
    exact this.ne' hz
  · exact one_ne_zero hz

theorem sumSlices_zero_at {card : Nat → Nat} {vs l : List Nat} {F : (Nat → Nat → Nat) → K} (h : ∀ Y, 0 ≤ F Y) {X : Nat → Nat → Nat} (h0 : sumSlices card vs l F X = 0)
    (hl : l.Nodup) {Y : Nat → Nat → Nat} (hY : ∀ s ∈ l, Legal card vs (Y s)) (hz : ∀ s ∈ l, ∀ v, v ∉ vs → Y s v = 0) (hX : ∀ s, s ∉ l → Y s = X s) : F Y = 0 := by
  induction l generalizing X with
  | nil =>
    have : Y = X := funext fun s => hX s (by simp)
    rw [this]; exact h0
  | cons s ss ih =>
    simp only [sumSlices] at h0
    have hnn : ∀ z, 0 ≤ sumSlices card vs ss F (Function.update X s z) := by
      intro z
      have := sumSlices_mono (card := card) (vs := vs) (l := ss) (F := fun _ => (0 : K)) (G := F) (X := Function.update X s z) (fun Y _ _ => h Y)
      rwa [sumSlices_zero] at this
    have h1 := sumOver_zero_at hnn h0 (hY s (by simp)) (fun v hv => hz s (by simp) v hv)
    refine ih h1 (List.nodup_cons.mp hl).2 (fun t ht => hY t (by simp [ht])) (fun t ht => hz t (by simp [ht])) ?_
    intro t ht
    by_cases e : t = s
    · subst e; rw [Function.update_self]
    · rw [Function.update_of_ne e]
      exact hX t (by simp [e, ht])

theorem total_agreeable {f : NetFile K} (hf : f.Valid) (ht : f.Temporal) {c : Nat → List Nat → K} (hc : ∀ v cell, 0 < c v cell) (seen : Nat → Nat → Int) (n : Nat) :
    total (f.relearn c) seen n ≠ 0 ↔ (f.relearn c).Agreeable seen n := by
  classical
  have hval := relearn_valid hf (count := c) (fun v cell => (hc v cell).le)
  have hw : ∀ Y : Nat → Nat → Nat, (∀ s, s < n → Legal f.card f.vars (Y s)) →
      ((f.relearn c).unrolledWeight seen n Y ≠ 0 ↔ (∀ s, s + 1 < n → f.Linked (Y s) (Y (s + 1))) ∧ ∀ t, t < n → ∀ v ∈ f.vars, 0 ≤ seen t v → (Y t v : Int) = seen t v) := by
    intro Y hY
    unfold NetFile.unrolledWeight
    by_cases hl : ∀ s, s + 1 < n → (f.relearn c).Linked (Y s) (Y (s + 1))
    · rw [if_pos hl, Finset.prod_ne_zero_iff]
      constructor
      · intro h
        refine ⟨hl, fun t ht => ?_⟩
        exact (visible_iff f (seen t) (hY t ht)).1 ((relearn_slice_ne hf hc seen t (hY t ht)).1 (h t (Finset.mem_range.mpr ht)))
      · rintro ⟨_, h⟩ t ht
        have ht := Finset.mem_range.mp ht
        exact (relearn_slice_ne hf hc seen t (hY t ht)).2 ((visible_iff f (seen t) (hY t ht)).2 (h t ht))
    · rw [if_neg hl]
      exact ⟨fun h => absurd rfl h, fun h => absurd h.1 hl⟩
  constructor
  · intro h
    by_contra hno
    apply h
    unfold total NetFile.unrolledTotal
    rw [← sumSlices_zero (K := K) (card := f.card) (vs := f.vars) (List.range n) (fun _ _ => 0)]
    refine sumSlices_legal fun Y h1 _ => ?_
    rw [if_pos trivial]
    by_contra hne
    have h2 : ∀ s, s < n → Legal f.card f.vars (Y s) := fun s hs => h1 s (List.mem_range.mpr hs)
    obtain ⟨k1, k2⟩ := (hw Y h2).1 hne
    exact hno ⟨Y, h2, k1, k2⟩
  · rintro ⟨X, k1, k2, k3⟩ h
    obtain ⟨Y, hYd⟩ : ∃ Y : Nat → Nat → Nat, Y = fun t u => if t < n ∧ u ∈ f.vars then X t u else 0 := ⟨_, rfl⟩
    have hYX : ∀ t, t < n → ∀ u ∈ f.vars, Y t u = X t u := fun t ht u hu => by rw [hYd]; exact if_pos ⟨ht, hu⟩
    have hleg : ∀ s, s < n → Legal f.card f.vars (Y s) := fun s hs v hv => by rw [hYX s hs v hv]; exact k1 s hs v hv
    have h0 : sumSlices f.card f.vars (List.range n) (fun Z => (f.relearn c).unrolledWeight seen n Z) (fun _ _ => 0) = 0 := by
      rw [← h]
      exact (total_eq (f.relearn c) seen n).symm
    have := sumSlices_zero_at (F := fun Z => (f.relearn c).unrolledWeight seen n Z) (by
      intro Z
      unfold NetFile.unrolledWeight
      split
      · exact Finset.prod_nonneg fun s _ => slice_nonneg hval seen s (Z s)
      · exact le_refl _) h0 List.nodup_range (Y := Y) (fun s hs => hleg s (List.mem_range.mp hs))
      (fun s _ v hv => by rw [hYd]; exact if_neg fun h => hv h.2)
      (fun s hs => by
        funext u
        rw [hYd]
        exact if_neg fun h => hs (List.mem_range.mpr h.1))
    refine ((hw Y hleg).2 ⟨?_, ?_⟩) this
    · intro s hs v hv u hu
      rw [hYX (s + 1) hs v hv, hYX s (by omega) u (ht.states v hv u hu).1]
      exact k2 s hs v hv u hu
    · intro t ht v hv h0
      rw [hYX t ht v hv]
      exact k3 t ht v hv h0

theorem agreeable_static {f : NetFile K} (hf : f.Valid) (h : NetFile.olds f = []) {seen : Nat → Nat → Int} {n : Nat} (hs : ∀ t, t < n → ∀ v ∈ f.vars, seen t v < f.card v) :
    f.Agreeable seen n := by
  refine ⟨fun t v => (seen t v).toNat, ?_, ?_, ?_⟩
  · intro t ht v hv
    have h1 := hs t ht v hv
    have h2 := hf.states v hv
    show (seen t v).toNat < f.card v
    omega
  · intro t _ v hv u hu
    have : v ∈ NetFile.olds f := List.mem_filter.mpr ⟨hv, by rw [Option.mem_def.mp hu]; rfl⟩
    rw [h] at this
    cases this
  · intro t _ v _ h0
    exact Int.toNat_of_nonneg h0

/-! ### series without columns -/

theorem eStep_filled {ts : TimeSeries} (h : Counted ts) (g : Logs K) (s : Interface) (marked : Nat → Bool) (params : List (Potential K)) (m : Model K) :
    eStep g s marked (filled ts) params m = eStep g s marked ts params m := by
  have h1 : countForward g s marked (filled ts) = countForward g s marked ts := by
    funext t st
    unfold countForward weighStep
    simp only [insertStep_filled h]
    rfl
  have h2 : countBackward (K := K) s marked (filled ts) = countBackward s marked ts := by
    funext t st
    unfold countBackward smoothAbsorb
    simp only [insertStep_filled h]
    rfl
  unfold eStep
  rw [h1, h2]
  rfl

theorem eSteps_filled {set : List TimeSeries} (h : ∀ ts ∈ set, Counted ts) (g : Logs K) (s : Interface) (marked : Nat → Bool) (params : List (Potential K)) (m : Model K) :
    eSteps g s marked (set.map filled) params m = eSteps g s marked set params m := by
  unfold eSteps
  rw [List.length_map]
  refine loop_congr fun n hn st => ?_
  by_cases h0 : st.1 ≠ 0
  · rw [if_pos h0, if_pos h0]
  · rw [if_neg h0, if_neg h0, rd_lt (by simpa using hn), rd_lt hn, ok_bind, ok_bind, List.getElem_map, eStep_filled (h _ (List.getElem_mem hn))]

theorem learnLoop_filled {set : List TimeSeries} (h : ∀ ts ∈ set, Counted ts) (g : Logs K) (s : Interface) (marked : Nat → Bool) (steps : Nat) (most : Int) (threshold : K)
    (fuel : Nat) : ∀ (i : Nat) (old : K) (curve : List K) (params : List (Potential K)) (m : Model K),
      learnLoop g s marked (set.map filled) steps most threshold fuel i old curve params m = learnLoop g s marked set steps most threshold fuel i old curve params m := by
  induction fuel with
  | zero => intros; rfl
  | succ fuel ih =>
    intro i old curve params m
    unfold learnLoop
    simp only [eSteps_filled h, ih]

theorem emLearn_filled {set : List TimeSeries} (h : ∀ ts ∈ set, Counted ts) (g : Logs K) (s : Interface) (marked : Nat → Bool) (rand : Option (Nat → Nat → K)) (most : Int)
    (threshold : K) (fuel : Nat) (m : Model K) : emLearn g s marked (set.map filled) rand most threshold fuel m = emLearn g s marked set rand most threshold fuel m := by
  unfold emLearn
  simp only [learnLoop_filled h, List.map_map]
  rfl

/-! ### leave one out -/

theorem leaveOut_eq {set : List TimeSeries} {i : Nat} (hi : i < set.length) {loo : List (Option TimeSeries)} (hl : loo.length = set.length - 1) :
    leaveOut set i loo = ok ((set.eraseIdx i).map some) := by
  have hel : ((set.eraseIdx i).map some).length = set.length - 1 := by rw [List.length_map, List.length_eraseIdx_of_lt hi]
  have hget : ∀ k, ((set.eraseIdx i).map some)[k]? = if k < i then (set[k]?).map some else (set[k + 1]?).map some := by
    intro k
    rw [List.getElem?_map, List.getElem?_eraseIdx]
    split <;> rfl
  obtain ⟨out, e1, e2, e3⟩ := loop_inv (n := set.length) (s := loo) (f := fun j loo => (do
      let loo ← if j < i then do
          let ts ← rd set j
          wr loo j (some ts)
        else ok loo
      if i < j then do
        let ts ← rd set j
        wr loo (j - 1) (some ts)
      else ok loo : Res (List (Option TimeSeries))))
    (fun j out => out.length = set.length - 1 ∧ ∀ k, k < (if j ≤ i then j else j - 1) → out[k]? = ((set.eraseIdx i).map some)[k]?)
    ⟨hl, fun k hk => by rw [if_pos (Nat.zero_le _)] at hk; omega⟩
    (by
      rintro j hj out ⟨h1, h2⟩
      rcases Nat.lt_trichotomy j i with h | h | h
      · refine ⟨out.set j (some set[j]), ?_, ?_, ?_⟩
        · have e : ¬ i < j := by omega
          simp only [if_pos h, if_neg e, rd_lt hj, ok_bind]
          rw [wr_lt (by omega)]
          rfl
        · rw [List.length_set]; exact h1
        · intro k hk
          rw [if_pos (by omega)] at hk
          rw [List.getElem?_set]
          by_cases e : j = k
          · subst e
            rw [if_pos rfl, if_pos (by omega), hget, if_pos h, List.getElem?_eq_getElem hj]
            rfl
          · rw [if_neg e]
            exact h2 k (by rw [if_pos (by omega)]; omega)
      · refine ⟨out, ?_, h1, ?_⟩
        · have e1 : ¬ j < i := by omega
          have e2 : ¬ i < j := by omega
          simp only [if_neg e1, if_neg e2, ok_bind]
        · intro k hk
          rw [if_neg (by omega)] at hk
          exact h2 k (by rw [if_pos (by omega)]; omega)
      · refine ⟨out.set (j - 1) (some set[j]), ?_, ?_, ?_⟩
        · have e : ¬ j < i := by omega
          simp only [if_pos h, if_neg e, rd_lt hj, ok_bind]
          rw [wr_lt (by omega)]
        · rw [List.length_set]; exact h1
        · intro k hk
          rw [if_neg (by omega)] at hk
          rw [List.getElem?_set]
          by_cases e : j - 1 = k
          · subst e
            rw [if_pos rfl, if_pos (by omega), hget, if_neg (by omega), show j - 1 + 1 = j by omega, List.getElem?_eq_getElem hj]
            rfl
          · rw [if_neg e]
            exact h2 k (by rw [if_neg (by omega)]; omega))
  have e4 : leaveOut set i loo = ok out := e1
  rw [e4]
  congr 1
  apply List.ext_getElem?
  intro k
  by_cases hk : k < set.length - 1
  · exact e3 k (by rw [if_neg (by omega)]; exact hk)
  · rw [List.getElem?_eq_none (by omega), List.getElem?_eq_none (by omega)]

theorem pointed_eq (set : List TimeSeries) : pointed (set.map some) = ok set := by
  unfold pointed
  induction set with
  | nil => rfl
  | cons ts set ih =>
    rw [List.map_cons, List.mapM_cons, ih]
    rfl

/-! ### marks -/

theorem markAll_mem {vars : List Nat} (marked : Nat → Bool) {v : Nat} (hv : v ∈ vars ∨ marked v = true) : markAll vars marked v = true := by
  unfold markAll
  induction vars generalizing marked with
  | nil => simpa using hv
  | cons a vars ih =>
    rw [List.foldl_cons]
    refine ih _ ?_
    by_cases e : v = a
    · right; rw [if_pos e]
    · rcases hv with hv | hv
      · rcases List.mem_cons.1 hv with h | h
        · exact absurd h e
        · exact Or.inl h
      · right; rw [if_neg e]; exact hv

theorem tsSees_marked {f : NetFile K} {ts : TimeSeries} (h : About f ts) {marked : Nat → Bool} (hm : ∀ v ∈ f.vars, marked v = true) :
    tsSees marked ts = tsSees (fun _ => true) ts := by
  funext t u
  unfold tsSees dataSees rowSees
  by_cases hu : marked u = true
  · rw [if_pos hu, if_pos rfl]
  · rw [if_neg hu, if_pos rfl]
    have hno : u ∉ ts.observed := fun h' => hu (hm u (h.sub u h'))
    have hlen : (ts.data.getD t []).length ≤ ts.observed.length := by
      by_cases ht : t < ts.data.length
      · rw [List.getD_eq_getElem _ _ ht]
        exact (h.wf.row _ (List.getElem_mem ht)).le
      · rw [List.getD_eq_default _ _ (by omega)]; simp
    rw [List.getD_eq_default _ _ (by rw [List.idxOf_eq_length hno]; exact hlen)]

theorem tsSees_unmarked (v : Nat) (marked : Nat → Bool) (ts : TimeSeries) : tsSees (unmark v marked) ts = seenBut v (tsSees marked ts) := by
  funext t u
  unfold tsSees dataSees rowSees unmark seenBut
  by_cases e : u = v
  · simp [e]
  · simp [e]

/-! ### learning for one series -/

/-- the model between calls of `em_learn`, with whatever evidence there may be -/
structure Loaded (f h : NetFile K) (i : Interface) (m : Model K) : Prop where
  variant : Variant f h
  carries : ∃ w T, Carries h.net m w T
  iface : InterfaceOk h.net m i
  parents : ∀ v, (m.var v).parents = f.givens v

theorem Ready.loaded {f h : NetFile K} (hf : f.Valid) {i : Interface} {m : Model K} (hm : Ready f h i m) : Loaded f h i m :=
  ⟨hm.variant, ⟨_, _, hm.idle.holds.carries⟩, hm.iface, fun v => by rw [hm.idle.parents, hm.variant.givens hf]⟩

/-- one call of `em_learn` that starts with random numbers -/
theorem draw_spec {a : Lesson K} (hf : a.file.Valid) (htm : a.file.Temporal) {i : Interface} (hi : IsInterface a.file i) {series : List TimeSeries}
    (hser : ∀ ts ∈ series, About a.file ts) (marked : Nat → Bool) (hdata : a.data = evidenceOf marked series)
    (hg : Logs.Law ⟨a.log, a.lowest⟩) (hg1 : ∀ b, 0 < b → b ≤ 1 → a.log b ≤ 0)
    {h : NetFile K} {m : Model K} (hm : Loaded a.file h i m) {rand : Nat → Nat → K} (hrand : ∀ i j, 0 ≤ rand i j) (most : Int) :
    ∃ (R : Learned K) (c : Spec.Call K), emLearn ⟨a.log, a.lowest⟩ i marked series (some rand) most a.threshold (max 3 most.toNat) m = ok R ∧ c.Right a most ∧
      c.start = countsIn a.file (a.file.drawn rand) ∧ Loaded a.file (c.net a) i R.model ∧ R.curve.map (fun b => b / (a.steps : K)) = c.curve a ∧
      ((R.code = NIP_ERROR_BAD_LUCK ∧ c.ending = .badLuck) ∨ (R.code = 0 ∧ c.ending ≠ .badLuck)) := by
  obtain ⟨w, T, hcar⟩ := hm.carries
  have hct := drawn_counts hf hrand
  have hsteps : (series.map (fun ts => ts.length)).sum = a.steps := by
    unfold Lesson.steps
    rw [hdata]
    simp [evidenceOf, Function.comp_def]
  obtain ⟨R, k, w', T', _, k1, k2, k3, k4, k5, k6⟩ := learnLoop_spec hf htm hi hser marked hg hg1 (series.map (fun ts => ts.length)).sum most
    a.threshold (countsIn a.file (a.file.drawn rand)) hdata (max 3 most.toNat) 0 a.lowest (a.file.drawn rand) m w T h hm.variant hcar hm.iface hm.parents hct
    (fun v _ cell _ => rfl) rfl (by omega) (by omega)
  rw [hsteps] at k1 k2 k3
  have hnn := learnRounds_nonneg hf a.data (start := countsIn a.file (a.file.drawn rand)) (fun v cell => countsIn_nonneg hct v cell)
  have hd := verdict_decided a most (countsIn a.file (a.file.drawn rand)) k (endingOf (R.code, R.criterion))
  refine ⟨R, ⟨countsIn a.file (a.file.drawn rand), k, endingOf (R.code, R.criterion)⟩, ?_, ⟨fun v cell => countsIn_nonneg hct v cell, ?_, ?_⟩, rfl,
    ⟨Or.inr ⟨_, hnn k, rfl⟩, ⟨w', T', k4.2.1⟩, k4.2.2.iface, k4.2.2.parents⟩, ?_, ?_⟩
  · unfold emLearn
    rw [newParameters_spec (hm.variant.valid hf) hcar.sound (fun v => by rw [hm.parents, hm.variant.givens hf]), ok_bind, hm.variant.drawn hf, hsteps]
    simp only [random_drawn, ok_bind]
    exact k1
  · intro j hj
    rw [← hd, k2 j (Nat.zero_le _) hj]
    rfl
  · rw [← hd, k3]
    rfl
  · unfold Call.curve
    by_cases hx : (Call.net a ⟨countsIn a.file (a.file.drawn rand), k, endingOf (R.code, R.criterion)⟩).Explains a.data
    · rw [if_pos hx, (k5 hx).1, List.map_map]
      rfl
    · rw [if_neg hx, k6 hx, List.map_map]
      rfl
  · rcases verdict_codes k3 with ⟨h1, h2⟩ | ⟨_, h1, h2 | h2⟩
    · left; exact ⟨h1, by rw [h1, h2]; rfl⟩
    · right; exact ⟨h1, by rw [h1, h2]; show Ending.converged ≠ _; decide⟩
    · right; exact ⟨h1, by rw [h1, h2]; show Ending.exhausted ≠ _; decide⟩

theorem benchmarkLearn_spec {a : Lesson K} (hf : a.file.Valid) (htm : a.file.Temporal) {i : Interface} (hi : IsInterface a.file i) {set : List TimeSeries}
    (hset : ∀ ts ∈ set, Counted ts ∧ About a.file (filled ts)) {marked : Nat → Bool} (hmarked : ∀ v ∈ a.file.vars, marked v = true)
    (hdata : a.data = evidenceOf (fun _ => true) (set.map filled)) (hmost : a.most = 1024)
    (hg : Logs.Law ⟨a.log, a.lowest⟩) (hg1 : ∀ b, 0 < b → b ≤ 1 → a.log b ≤ 0) (hrand : ∀ k i j, 0 ≤ a.rand k 0 i j) (fuel : Nat) :
    ∀ (call : Nat) (h : NetFile K) (m : Model K), Loaded a.file h i m →
      (benchmarkLearn ⟨a.log, a.lowest⟩ i marked (set.map some) (fun k => a.rand k 0) a.threshold a.least fuel call m = ok none ∧
        ∃ cs : List (Spec.Call K), cs.length = fuel ∧ ∀ (k : Nat) c, cs[k]? = some c → c.Attempt a (call + k) ∧ ¬ c.Enough a) ∨
      ∃ (cs : List (Spec.Call K)) (c : Spec.Call K) (m' : Model K),
        benchmarkLearn ⟨a.log, a.lowest⟩ i marked (set.map some) (fun k => a.rand k 0) a.threshold a.least fuel call m = ok (some (false, m')) ∧
        cs.length < fuel ∧ (∀ (k : Nat) c, cs[k]? = some c → c.Attempt a (call + k) ∧ ¬ c.Enough a) ∧ c.Attempt a (call + cs.length) ∧ c.Enough a ∧
        Loaded a.file (c.net a) i m' := by
  have hdata' : a.data = evidenceOf marked (set.map filled) := by
    rw [hdata]
    unfold evidenceOf
    rw [List.map_map, List.map_map]
    apply List.map_congr_left
    intro ts hts
    show (_, _) = (_, _)
    rw [tsSees_marked (hset ts hts).2 hmarked]
  have hsteps : (set.map (fun ts => ts.length)).sum = a.steps := by
    unfold Lesson.steps
    rw [hdata]
    simp [evidenceOf, Function.comp_def, filled]
  induction fuel with
  | zero => intro call h m hm; left; exact ⟨rfl, [], rfl, by simp⟩
  | succ fuel ih =>
    intro call h m hm
    obtain ⟨R, c, k1, k2, k3, k4, k5, k6⟩ := draw_spec hf htm hi (series := set.map filled) (fun ts hts => by
      obtain ⟨ts', h', rfl⟩ := List.mem_map.1 hts
      exact (hset ts' h').2) marked hdata' hg hg1 hm (rand := a.rand call 0) (hrand call) 1024
    rw [emLearn_filled (fun ts hts => (hset ts hts).1)] at k1
    have hatt : c.Attempt a call := ⟨by rw [hmost]; exact k2, k3⟩
    have hunf : benchmarkLearn ⟨a.log, a.lowest⟩ i marked (set.map some) (fun k => a.rand k 0) a.threshold a.least (fuel + 1) call m =
        if R.code = NIP_ERROR_BAD_LUCK ∨ (c.curve a).getLastD 0 < a.least then
          benchmarkLearn ⟨a.log, a.lowest⟩ i marked (set.map some) (fun k => a.rand k 0) a.threshold a.least fuel (call + 1) R.model
        else ok (some (false, R.model)) := by
      have k1' : emLearn ⟨a.log, a.lowest⟩ i marked set (some (a.rand call 0)) benchmarkIterations a.threshold benchmarkIterations m = ok R := k1
      rw [benchmarkLearn, pointed_eq, ok_bind, k1', ok_bind, if_neg (not_not.mpr (by
        rcases k6 with h | h
        · exact Or.inr h.1
        · exact Or.inl h.1)), hsteps, k5]
    have hbad : (R.code = NIP_ERROR_BAD_LUCK ∨ (c.curve a).getLastD 0 < a.least) ↔ ¬ c.Enough a := by
      unfold Call.Enough
      rcases k6 with ⟨h1, h2⟩ | ⟨h1, h2⟩
      · simp [h1, h2]
      · have := curve_last k2 h2 []
        rw [List.nil_append] at this
        rw [this, h1]
        simp [h2, NIP_ERROR_BAD_LUCK]
    rw [hunf]
    by_cases hb : c.Enough a
    · rw [if_neg (fun h => (hbad.1 h) hb)]
      right
      exact ⟨[], c, R.model, rfl, by simp, by simp, by simpa using hatt, hb, k4⟩
    · rw [if_pos (hbad.2 hb)]
      have hcons : ∀ {cs : List (Spec.Call K)}, (∀ (k : Nat) c, cs[k]? = some c → c.Attempt a (call + 1 + k) ∧ ¬ c.Enough a) →
          ∀ (k : Nat) c', (c :: cs)[k]? = some c' → c'.Attempt a (call + k) ∧ ¬ c'.Enough a := by
        intro cs hcs k c' hk
        cases k with
        | zero => cases hk; exact ⟨hatt, hb⟩
        | succ k =>
          rw [List.getElem?_cons_succ] at hk
          have := hcs k c' hk
          rwa [show call + 1 + k = call + (k + 1) by omega] at this
      rcases ih (call + 1) _ _ k4 with ⟨e1, cs, e2, e3⟩ | ⟨cs, c', m', e1, e2, e3, e4, e5, e6⟩
      · left
        exact ⟨e1, c :: cs, by simp [e2], hcons e3⟩
      · right
        refine ⟨c :: cs, c', m', e1, by simpa using e2, hcons e3, ?_, e5, e6⟩
        rw [List.length_cons, show call + (cs.length + 1) = call + 1 + cs.length by omega]
        exact e4

/-! ### the main loop -/

/-- what the test gave for a series -/
structure Tested (h : NetFile K) (v : Nat) (e : Nat × (Nat → Nat → Int)) (u : UncertainSeries K) : Prop where
  vars : u.vars = [v]
  length : u.length = e.1
  rows : u.data.length = e.1
  row : ∀ row ∈ u.data, row.map List.length = [h.card v]
  value : h.Agreeable (seenBut v e.2) e.1 → ∀ (t : Nat) row, u.data[t]? = some row → row = [h.unrolledPosterior (seenBut v e.2) e.1 t v]

/-- the series of a test -/
structure Testable (f : NetFile K) (ts : TimeSeries) : Prop where
  counted : Counted ts
  about : About f (filled ts)
  nonempty : 0 < ts.length
  inRange : ∀ t, ∀ v ∈ f.vars, tsSees (fun _ => true) (filled ts) t v < f.card v

theorem benchmarkFold_spec {b : Trial K} (hf : b.file.Valid) (htm : b.file.Temporal) {i : Interface} (hi : IsInterface b.file i) {set : List TimeSeries}
    (hset : ∀ ts ∈ set, Testable b.file ts) (hdata : b.data = evidenceOf (fun _ => true) (set.map filled))
    (hg : Logs.Law ⟨b.log, b.lowest⟩) (hg1 : ∀ x, 0 < x → x ≤ 1 → b.log x ≤ 0) (hrand : ∀ n k i j, 0 ≤ b.rand n k i j) {v : Nat} (hv : v ∈ b.file.vars) (fuel : Nat)
    {fold : Nat} (hfold : fold < set.length) {st : Benchmark K} {h : NetFile K} (hm : Loaded b.file h i st.model) (hloo : st.loo.length = set.length - 1) :
    (benchmarkFold ⟨b.log, b.lowest⟩ i b.file.vars v set b.rand b.threshold b.least fuel fold st = ok none ∧ ∃ cs, cs.length = fuel ∧ AllBad (b.lesson fold) cs) ∨
    ∃ cs c st' u, benchmarkFold ⟨b.log, b.lowest⟩ i b.file.vars v set b.rand b.threshold b.least fuel fold st = ok (some (false, st')) ∧ cs.length < fuel ∧
      LastGood (b.lesson fold) cs c ∧ Loaded b.file (c.net (b.lesson fold)) i st'.model ∧ st'.loo.length = set.length - 1 ∧ st'.ucs = st.ucs ++ [u] ∧
      (∀ e, b.data[fold]? = some e → Tested (c.net (b.lesson fold)) v e u ∧
        st'.ll = st.ll + (c.net (b.lesson fold)).logSeen b.log b.lowest (seenBut v e.2) e.1 / (e.1 : K)) ∧
      st'.text = st.text ++ ("  ".toList ++ Nat.toDigits 10 (fold + 1) ++ " / ".toList ++ Nat.toDigits 10 set.length ++ ['\n']) := by
  have hdl : (b.lesson fold).data = evidenceOf (fun _ => true) ((set.eraseIdx fold).map filled) := by
    show b.data.eraseIdx fold = _
    rw [hdata]
    unfold evidenceOf
    rw [List.map_map, List.map_map, List.eraseIdx_map]
  have hmark : ∀ u ∈ b.file.vars, markAll b.file.vars st.marked u = true := fun u hu => markAll_mem _ (Or.inl hu)
  have key := benchmarkLearn_spec (a := b.lesson fold) hf htm hi (set := set.eraseIdx fold)
    (fun ts hts => ⟨(hset ts (List.mem_of_mem_eraseIdx hts)).counted, (hset ts (List.mem_of_mem_eraseIdx hts)).about⟩) hmark hdl rfl hg hg1 (fun k => hrand fold k) fuel 0 h
    st.model hm
  simp only [Nat.zero_add] at key
  rcases key with ⟨k1, cs, k2, k3⟩ | ⟨cs, c, m', k1, k2, k3, k4, k5, k6⟩
  · left
    refine ⟨?_, cs, k2, k3⟩
    have k1' : benchmarkLearn ⟨b.log, b.lowest⟩ i (markAll b.file.vars st.marked) ((set.eraseIdx fold).map some) (b.rand fold) b.threshold b.least fuel 0 st.model = ok none := k1
    unfold benchmarkFold
    rw [leaveOut_eq hfold hloo, ok_bind]
    simp only [k1', ok_bind]
  · right
    have k1' : benchmarkLearn ⟨b.log, b.lowest⟩ i (markAll b.file.vars st.marked) ((set.eraseIdx fold).map some) (b.rand fold) b.threshold b.least fuel 0 st.model =
      ok (some (false, m')) := k1
    have hts := hset _ (List.getElem_mem hfold)
    obtain ⟨count, c1, c2⟩ := net_later (a := b.lesson fold) hf k4.right.nonneg (by have := (Right.explains k4.right k5.1).2; omega)
    have c2 : c.net (b.lesson fold) = b.file.relearn count := c2
    have hvar : Variant b.file (b.file.relearn count) := c2 ▸ k6.variant
    have hval := hvar.valid hf
    have htem := hvar.temporal hf htm
    have hiface := hvar.isInterface hi
    have hab := hvar.about hts.about
    have hvm : v ∈ (b.file.relearn count).vars := hv
    obtain ⟨w, T, hcar⟩ := k6.carries
    have hif := k6.iface
    have hpar := k6.parents
    rw [c2] at hcar hif
    have hsee : tsSees (unmark v (markAll b.file.vars st.marked)) (filled set[fold]) = seenBut v (tsSees (fun _ => true) (filled set[fold])) := by
      rw [tsSees_unmarked, tsSees_marked hts.about hmark]
    obtain ⟨r, ll, m2, r1, r2, ⟨w2, r3⟩, r4, r5, r6, r7⟩ := smooth_spec hval htem hiface hab (unmark v (markAll b.file.vars st.marked)) (some ⟨b.log, b.lowest⟩) (vars := [v])
      (by simpa using hvm) hcar hif
    have hne : NetFile.olds (b.file.relearn count) ≠ [] ∨
        total (b.file.relearn count) (tsSees (unmark v (markAll b.file.vars st.marked)) (filled set[fold])) ((filled set[fold]).length - 1) ≠ 0 := by
      by_cases ho : NetFile.olds (b.file.relearn count) = []
      · right
        rw [total_agreeable hf htm c1, hsee]
        refine agreeable_static hval ho fun t _ u hu => ?_
        unfold seenBut
        split
        · omega
        · exact hts.inRange t u hu
      · exact Or.inl ho
    obtain ⟨r', m2', s1⟩ := smooth_likelihood hval htem hiface hab (unmark v (markAll b.file.vars st.marked)) hg (vars := [v]) (by simpa using hvm) hcar hif hne
    rw [r1] at s1
    cases s1
    rw [forwardBackward_filled hts.counted] at r1
    obtain ⟨st2, hst⟩ : ∃ st2 : Benchmark K, st2 = ⟨(set.eraseIdx fold).map some, unmark v (markAll b.file.vars st.marked), m2,
        st.ucs ++ [⟨[v], set[fold].length, r⟩],
        st.ll + llSpec (b.file.relearn count) ⟨b.log, b.lowest⟩ (tsSees (unmark v (markAll b.file.vars st.marked)) (filled set[fold])) (filled set[fold]).length /
          (set[fold].length : K),
        st.text ++ "  ".toList ++ printNat (fold + 1) ++ " / ".toList ++ printNat set.length ++ ['\n']⟩ := ⟨_, rfl⟩
    refine ⟨cs, c, st2, ⟨[v], set[fold].length, r⟩, ?_, k2, ⟨k3, k4, k5⟩, ?_, ?_, by rw [hst], ?_, ?_⟩
    · unfold benchmarkFold
      rw [leaveOut_eq hfold hloo, ok_bind]
      simp only [k1', ok_bind]
      rw [rd_lt hfold, ok_bind, r1, ok_bind]
      simp only
      rw [if_neg hts.nonempty.ne', hst]
    · rw [c2, hst]
      exact ⟨hvar, ⟨_, _, r3.carries⟩, r4, fun u => (r7.parents u).trans (hpar u)⟩
    · rw [hst]
      show ((set.eraseIdx fold).map some).length = _
      rw [List.length_map, List.length_eraseIdx_of_lt hfold]
    · intro e he
      have hee : e = (set[fold].length, tsSees (fun _ => true) (filled set[fold])) := by
        rw [hdata] at he
        unfold evidenceOf at he
        rw [List.getElem?_map, List.getElem?_map, List.getElem?_eq_getElem hfold] at he
        cases he
        rfl
      subst hee
      rw [c2, hst]
      refine ⟨⟨rfl, rfl, r2, by simpa using r6, ?_⟩, ?_⟩
      · intro ha t row hr
        have ha' := (total_agreeable hf htm c1 _ _).2 ha
        have := r5 (by rw [hsee]; exact ha') t row hr
        rw [hsee] at this
        exact this
      · simp only
        congr 2
        unfold llSpec NetFile.logSeen
        rw [hsee, show (filled set[fold]).length = set[fold].length from rfl]
        by_cases ha : (b.file.relearn count).Agreeable (seenBut v (tsSees (fun _ => true) (filled set[fold]))) set[fold].length
        · rw [if_pos ha, if_neg ((total_agreeable hf htm c1 _ _).2 ha)]
        · rw [if_neg ha, if_pos (by
            by_contra h'
            exact ha ((total_agreeable hf htm c1 _ _).1 h'))]
    · rw [hst]
      simp [printNat, List.append_assoc]

theorem benchmarkLoop_spec {b : Trial K} (hf : b.file.Valid) (htm : b.file.Temporal) {i : Interface} (hi : IsInterface b.file i) {set : List TimeSeries}
    (hset : ∀ ts ∈ set, Testable b.file ts) (hdata : b.data = evidenceOf (fun _ => true) (set.map filled))
    (hg : Logs.Law ⟨b.log, b.lowest⟩) (hg1 : ∀ x, 0 < x → x ≤ 1 → b.log x ≤ 0) (hrand : ∀ n k i j, 0 ≤ b.rand n k i j) {v : Nat} (hv : v ∈ b.file.vars) (fuel : Nat)
    {st : Benchmark K} {h : NetFile K} (hm : Loaded b.file h i st.model) (hloo : st.loo.length = set.length - 1) (hucs : st.ucs = []) (hll : st.ll = 0) :
    (benchmarkLoop ⟨b.log, b.lowest⟩ i b.file.vars v set b.rand b.threshold b.least fuel st = ok none ∧
      ∃ k cs, k < set.length ∧ cs.length = fuel ∧ AllBad (b.lesson k) cs) ∨
    ∃ (c : Nat → Spec.Call K) (st' : Benchmark K), benchmarkLoop ⟨b.log, b.lowest⟩ i b.file.vars v set b.rand b.threshold b.least fuel st = ok (some (false, st')) ∧
      (∀ k, k < set.length → ∃ cs, cs.length < fuel ∧ LastGood (b.lesson k) cs (c k)) ∧ st'.ucs.length = set.length ∧
      (∀ (k : Nat) e u, b.data[k]? = some e → st'.ucs[k]? = some u → Tested ((c k).net (b.lesson k)) v e u) ∧
      st'.ll = (b.data.mapIdx (fun k e => ((c k).net (b.lesson k)).logSeen b.log b.lowest (seenBut v e.2) e.1 / (e.1 : K))).sum ∧
      st'.text = st.text ++ progressText set.length := by
  have hdl : b.data.length = set.length := by rw [hdata]; simp [evidenceOf]
  obtain ⟨o, e1, e2⟩ := loop_inv (n := set.length) (s := (some (false, st) : Option (Bool × Benchmark K))) (f := fun fold st => match st with
      | some (false, st) => benchmarkFold ⟨b.log, b.lowest⟩ i b.file.vars v set b.rand b.threshold b.least fuel fold st
      | st => ok st)
    (fun n o => (o = none ∧ ∃ k cs, k < set.length ∧ cs.length = fuel ∧ AllBad (b.lesson k) cs) ∨
      ∃ (c : Nat → Spec.Call K) (st' : Benchmark K) (h : NetFile K), o = some (false, st') ∧ Loaded b.file h i st'.model ∧ st'.loo.length = set.length - 1 ∧
        (∀ k, k < n → ∃ cs, cs.length < fuel ∧ LastGood (b.lesson k) cs (c k)) ∧ st'.ucs.length = n ∧
        (∀ (k : Nat) e u, b.data[k]? = some e → st'.ucs[k]? = some u → Tested ((c k).net (b.lesson k)) v e u) ∧
        st'.ll = ((b.data.take n).mapIdx (fun k e => ((c k).net (b.lesson k)).logSeen b.log b.lowest (seenBut v e.2) e.1 / (e.1 : K))).sum ∧
        st'.text = st.text ++ ((List.range n).map (fun i => "  ".toList ++ Nat.toDigits 10 (i + 1) ++ " / ".toList ++ Nat.toDigits 10 set.length ++ ['\n'])).flatten)
    (Or.inr ⟨fun _ => ⟨fun _ _ => 0, 0, .badLuck⟩, st, h, rfl, hm, hloo, fun k hk => absurd hk (Nat.not_lt_zero k), by rw [hucs]; rfl, by rw [hucs]; simp, by simp [hll], by simp⟩)
    (by
      rintro n hn o (⟨rfl, h2⟩ | ⟨c, st1, h, rfl, h1, h2, h3, h4, h5, h6, h7⟩)
      · exact ⟨none, rfl, Or.inl ⟨rfl, h2⟩⟩
      · rcases benchmarkFold_spec hf htm hi hset hdata hg hg1 hrand hv fuel hn h1 h2 with ⟨k1, cs, k2, k3⟩ | ⟨cs, d, st2, u, k1, k2, k3, k4, k5, k6, k7, k8⟩
        · exact ⟨none, k1, Or.inl ⟨rfl, n, cs, hn, k2, k3⟩⟩
        · have hold : ∀ k, k < n → Function.update c n d k = c k := fun k hk => Function.update_of_ne (by omega) _ _
          have hnew : Function.update c n d n = d := Function.update_self ..
          refine ⟨some (false, st2), k1, Or.inr ⟨Function.update c n d, st2, _, rfl, k4, k5, ?_, ?_, ?_, ?_, ?_⟩⟩
          · intro k hk
            rcases Nat.lt_succ_iff_lt_or_eq.mp hk with hk | rfl
            · rw [hold k hk]; exact h3 k hk
            · rw [hnew]; exact ⟨cs, k2, k3⟩
          · rw [k6]; simp [h4]
          · intro k e u' he hu
            rw [k6] at hu
            rcases Nat.lt_trichotomy k n with hk | rfl | hk
            · rw [hold k hk]
              rw [List.getElem?_append_left (by omega)] at hu
              exact h5 k e u' he hu
            · rw [hnew]
              rw [← h4, List.getElem?_concat_length] at hu
              cases hu
              exact (k7 e he).1
            · rw [List.getElem?_eq_none (by simp; omega)] at hu
              cases hu
          · have hnd : n < b.data.length := by omega
            rw [(k7 _ (List.getElem?_eq_getElem hnd)).2, h6, List.take_succ_eq_append_getElem hnd, List.mapIdx_append, List.sum_append]
            congr 1
            · congr 1
              apply List.ext_getElem
              · simp
              · intro k hk1 hk2
                have hk : k < n := by simp at hk1; omega
                simp only [List.getElem_mapIdx]
                rw [hold k hk]
            · simp [List.length_take, Nat.min_eq_left hnd.le]
          · rw [k8, h7, List.range_succ, List.map_append, List.flatten_append]
            simp [List.append_assoc])
  rcases e2 with ⟨rfl, h2⟩ | ⟨c, st1, h, rfl, h1, h2, h3, h4, h5, h6, h7⟩
  · exact Or.inl ⟨e1, h2⟩
  · refine Or.inr ⟨c, st1, e1, h3, h4, h5, ?_, h7⟩
    rw [h6, List.take_of_length_le (by omega)]

end Nip
