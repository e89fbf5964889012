import Verif.Ascend
import Verif.Spec.Trained
import Verif.Train
import Verif.WriteAll

/-! # Lemmas for C90: calls of `em_learn` one after the other, and the model between them -/

namespace Nip

open Res Spec Model

set_option linter.unusedSectionVars false

variable {K : Type} [Field K] [LinearOrder K] [IsStrictOrderedRing K]

/-! ### the model that learning leaves -/

theorem leaves_orig {f : NetFile K} (hf : f.Valid) {s : Interface} {count : Nat → List Nat → K} {m : Model K} (h : Leaves f s count m) (c : Nat) (x : Asg) :
    m.tree.origOf f.card c x = tablesProd (f.relearn count) (residents (f.relearn count) m.tree c) x := by
  rw [h.orig]
  unfold tablesProd residents
  have : (f.relearn count).pots = f.vars.map (f.learnedTable count) := rfl
  rw [this, List.filter_map, List.map_map]
  congr 1
  have e : (f.vars.filter (fun v => decide (f.givens v ≠ []) && livesIn m.tree (f.givens v) v c)) =
      f.vars.filter ((fun q : Parsed K => decide (q.parents ≠ []) && home m.tree q c) ∘ f.learnedTable count) := rfl
  rw [e]
  apply List.map_congr_left
  intro v hv
  have hvm := (List.mem_filter.mp hv).1
  exact (learned_sem hf count hvm x).symm

/-- after learning, a reset gives a model of the network learned -/
theorem idle_after {f : NetFile K} (hf : f.Valid) {s : Interface} {count : Nat → List Nat → K} {m : Model K} {w : World K} {T : Asg → K}
    (h : Carries (f.relearn count).net m w T) (hl : Leaves f s count m) :
    ∃ m1, m.reset = ok m1 ∧ Idle (f.relearn count) m1 ∧ InterfaceOk (f.relearn count).net m1 s := by
  obtain ⟨r1, r2, r3⟩ := reset_spec h.sound (fun v hv => by rw [(h.told.lik v hv).1]; exact (h.told.lik v hv).2.1)
  have hl2 := hl.same r2
  exact ⟨_, r1, ⟨r3, fun v => by rw [hl2.parents, relearn_givens hf], fun c x => leaves_orig hf hl2 c x⟩, hl2.iface⟩

theorem Variant.drawn {f h : NetFile K} (k : Variant f h) (hf : f.Valid) (num : Nat → Nat → K) : h.drawn num = f.drawn num := by
  unfold NetFile.drawn
  rw [k.vars, k.card, k.givens hf]

theorem Variant.acyclic {f h : NetFile K} (k : Variant f h) (hf : f.Valid) (ha : f.Acyclic) : h.Acyclic := by
  rcases k with rfl | ⟨c, _, rfl⟩
  · exact ha
  · obtain ⟨rank, hr⟩ := ha
    refine ⟨rank, fun q hq u hu => ?_⟩
    obtain ⟨v, hv, rfl⟩ := List.mem_map.mp (show q ∈ f.vars.map (f.learnedTable c) from hq)
    have hu' : u ∈ f.givens v := hu
    rw [givens_eq, mem_parentsOf hf] at hu'
    obtain ⟨q, h1, h2, h3⟩ := hu'
    have := hr q h1 u h3
    rw [h2] at this
    exact this

theorem entry_wrap {f : NetFile K} {x : Asg} (hx : Legal f.card f.vars x) (q : Parsed K) : f.entry q (wrap f.card x) = f.entry q x := by
  unfold NetFile.entry
  congr 1
  apply List.map_congr_left
  intro u hu
  exact Nat.mod_eq_of_lt (hx u (List.mem_filter.mp hu).1)

theorem tables_wrap {f : NetFile K} {x : Asg} (hx : Legal f.card f.vars x) : f.net.tables (wrap f.card x) = f.net.tables x := by
  unfold NetFile.net
  simp only [entry_wrap hx]

/-! ### one call -/

/-- the codes of `em_learn` -/
def endingOf : Nat × Option Convergence → Ending
  | (0, some .delta) => .converged
  | (0, some .iterations) => .exhausted
  | _ => .badLuck

theorem verdict_decided (a : Lesson K) (most : Int) (start : Nat → List Nat → K) (last : Nat) (e : Ending) (j : Nat) :
    (verdict a.lowest ((a.steps : K) * a.threshold) most (fun j => (a.file.learnedNet a.data start j).Explains a.data)
      (fun j => (a.file.learnedNet a.data start j).score a.log a.data) j).map endingOf = (Call.mk start last e).decided a most j := by
  have hb : (if j = 0 then a.lowest else (a.file.learnedNet a.data start (j - 1)).score a.log a.data) = (Call.mk start last e).scoreBefore a j := by
    cases j <;> rfl
  unfold verdict Call.decided
  rw [hb]
  have h3 : j + 1 < 3 ↔ j < 2 := by omega
  have h4 : most ≤ ((j + 1 : Nat) : Int) ↔ most ≤ (j : Int) + 1 := by push_cast; rfl
  simp only [Call.netAt, Call.scoreAt, h3, h4]
  by_cases h1 : (a.file.learnedNet a.data start j).Explains a.data
  · simp only [h1, not_true_eq_false, if_false]
    by_cases h5 : (a.file.learnedNet a.data start j).score a.log a.data + (a.steps : K) * a.threshold < (Call.mk start last e).scoreBefore a j
    · simp only [h5, if_true]; rfl
    · by_cases h6 : j < 2
      · simp only [h5, h6, if_true, if_false]; rfl
      · by_cases h7 : (a.file.learnedNet a.data start j).score a.log a.data - (Call.mk start last e).scoreBefore a j ≤ (a.steps : K) * a.threshold
        · simp only [h5, h6, h7, if_true, if_false]; rfl
        · by_cases h8 : most ≤ (j : Int) + 1
          · simp only [h5, h6, h7, h8, if_true, if_false]; rfl
          · simp only [h5, h6, h7, h8, if_false]; rfl
  · simp only [h1, not_false_eq_true, if_true, Option.map_some]
    rfl

theorem verdict_codes {lowest bound : K} {most : Int} {possible : Nat → Prop} {score : Nat → K} {k : Nat} {e : Nat} {c : Option Convergence}
    (h : verdict lowest bound most possible score k = some (e, c)) :
    (e = NIP_ERROR_BAD_LUCK ∧ c = none) ∨ (possible k ∧ e = 0 ∧ (c = some .delta ∨ c = some .iterations)) := by
  unfold verdict at h
  generalize (if k = 0 then lowest else score (k - 1)) = before at h
  by_cases h1 : possible k
  · rw [if_neg (not_not.mpr h1)] at h
    by_cases h2 : score k + bound < before
    · rw [if_pos h2] at h; cases h; exact Or.inl ⟨rfl, rfl⟩
    · rw [if_neg h2] at h
      by_cases h3 : k + 1 < 3
      · rw [if_pos h3] at h; cases h
      · rw [if_neg h3] at h
        by_cases h4 : score k - before ≤ bound
        · rw [if_pos h4] at h; cases h; exact Or.inr ⟨h1, rfl, Or.inl rfl⟩
        · rw [if_neg h4] at h
          by_cases h5 : most ≤ ((k + 1 : Nat) : Int)
          · rw [if_pos h5] at h; cases h; exact Or.inr ⟨h1, rfl, Or.inr rfl⟩
          · rw [if_neg h5] at h; cases h
  · rw [if_pos h1] at h; cases h; exact Or.inl ⟨rfl, rfl⟩

theorem learnRounds_nonneg {f : NetFile K} (hf : f.Valid) (data : Evidence) {start : Nat → List Nat → K} (h0 : ∀ v cell, 0 ≤ start v cell) :
    ∀ k v cell, 0 ≤ f.learnRounds data start k v cell := by
  intro k
  induction k with
  | zero => exact h0
  | succ k ih => exact fun v cell => (learnRound_pos hf data ih v cell).le

/-- the counts that learning starts with, if it goes on -/
theorem present_goes_on {f h : NetFile K} (hf : f.Valid) (ha : f.Acyclic) (hv : Variant f h) {m : Model K} (hi : Idle h m) :
    ∃ ps m1, presentParameters (f.drawn (fun _ _ => 1)) m = ok (some ps, m1) ∧ Same m m1 ∧ (∃ w1, Model.Holds h.net m1 w1) ∧ CountTables f ps ∧
      (h.Normalised → GoesOn f h (countsIn f ps)) := by
  have hc := hv.card
  have hvs := hv.vars
  have hgv := hv.givens hf
  have hvalid := hv.valid hf
  have hd : CountTables h (f.drawn (fun _ _ => (1 : K))) := (hv.counts hf).mpr (drawn_counts hf (fun _ _ => zero_le_one))
  by_cases hn : h.Normalised
  · obtain ⟨ps, m1, p1, p2, p3, p4, p5, p6⟩ := present_estimates hvalid hn (hv.acyclic hf ha) hi.holds hi.parents hi.orig hd
    refine ⟨ps, m1, p1, p2, ⟨_, p3⟩, (hv.counts hf).mp p4, fun _ => ⟨?_, ?_⟩⟩
    · intro v hvm hg x hx
      have := p5 v (by rw [hvs]; exact hvm) (by rw [hgv]; exact hg) x
      rw [hc, hv.countsIn] at this
      rw [← this, ← cell_legal hf hvm hx, hg]
    · intro q hq hqp x hx
      have hx' : Legal h.card h.vars x := by rw [hc, hvs]; exact hx
      have hcell : f.cell q.child x = states h.card (q.child :: q.parents) x := by
        rw [← cell_legal hf (by rw [← hvs]; exact hvalid.child q hq) hx, hc, ← hgv, givens_child hvalid hq]
      have := p6 q hq hqp x
      rw [entry_wrap hx', tables_wrap hx', ← hcell, hc, hv.countsIn] at this
      exact this
  · obtain ⟨ps, m1, p1, p2, p3, p4, _⟩ := presentParameters_spec hvalid hi.holds hi.parents hd
    exact ⟨ps, m1, p1, p2, ⟨_, p3⟩, (hv.counts hf).mp p4, fun h => absurd h hn⟩

/-- the model of a network with the variables and parents of `f`, between calls -/
structure Ready (f h : NetFile K) (i : Interface) (m : Model K) : Prop where
  variant : Variant f h
  idle : Idle h m
  iface : InterfaceOk h.net m i

/-- one call of `em_learn` -/
theorem call_spec {a : Lesson K} (hf : a.file.Valid) (htm : a.file.Temporal) (ha : a.file.Acyclic) {i : Interface} (hi : IsInterface a.file i) {series : List TimeSeries}
    (hser : ∀ ts ∈ series, About a.file ts) (hdata : a.data = evidenceOf (fun _ => true) series) {lowest : K} (hlow : a.lowest = lowest)
    (hg : Logs.Law ⟨a.log, lowest⟩) (hg1 : ∀ b, 0 < b → b ≤ 1 → a.log b ≤ 0)
    {h : NetFile K} {m : Model K} (hm : Ready a.file h i m) {rand : Option (Nat → Nat → K)} (hrand : ∀ r, rand = some r → ∀ i j, 0 ≤ r i j) (most : Int) :
    ∃ (R : Learned K) (c : Call K) (m1 : Model K), emLearn ⟨a.log, lowest⟩ i (fun _ => true) series rand most a.threshold (max 3 most.toNat) m = ok R ∧ c.Right a most ∧
      (∀ r, rand = some r → c.start = countsIn a.file (a.file.drawn r)) ∧ (rand = none → h.Normalised → GoesOn a.file h c.start) ∧
      R.model.reset = ok m1 ∧ Ready a.file (c.net a) i m1 ∧ R.curve.map (fun b => b / (a.steps : K)) = c.curve a ∧
      ((R.code = NIP_ERROR_BAD_LUCK ∧ R.criterion = none ∧ c.ending = .badLuck) ∨ (R.code = 0 ∧ R.criterion = some .delta ∧ c.ending = .converged) ∨
        (R.code = 0 ∧ R.criterion = some .iterations ∧ c.ending = .exhausted)) := by
  subst hlow
  obtain ⟨ps, m1, e1, e2, ⟨w1, e3⟩, e4, e5, e6⟩ : ∃ ps m1, (match rand with
      | some r => ok (some (randomParameters r (a.file.drawn (fun _ _ => 1))), m)
      | none => presentParameters (a.file.drawn (fun _ _ => 1)) m) = ok (some ps, m1) ∧ Same m m1 ∧ (∃ w1, Model.Holds h.net m1 w1) ∧ CountTables a.file ps ∧
        (∀ r, rand = some r → countsIn a.file ps = countsIn a.file (a.file.drawn r)) ∧ (rand = none → h.Normalised → GoesOn a.file h (countsIn a.file ps)) := by
    cases rand with
    | some r =>
      refine ⟨a.file.drawn r, m, by simp only [random_drawn], Same.refl m, ⟨_, hm.idle.holds⟩, drawn_counts hf (hrand r rfl), ?_, fun h => by cases h⟩
      intro r' e
      cases e
      rfl
    | none =>
      obtain ⟨ps, m1, k1, k2, k3, k4, k5⟩ := present_goes_on hf ha hm.variant hm.idle
      exact ⟨ps, m1, k1, k2, k3, k4, (fun r e => by cases e), fun _ => k5⟩
  have hsteps : (series.map (fun ts => ts.length)).sum = a.steps := by
    unfold Lesson.steps
    rw [hdata]
    simp [evidenceOf, Function.comp_def]
  obtain ⟨R, k, w', T', _, k1, k2, k3, k4, k5, k6⟩ := learnLoop_spec hf htm hi hser (fun _ => true) hg hg1 (series.map (fun ts => ts.length)).sum most
    a.threshold (countsIn a.file ps) hdata (max 3 most.toNat) 0 a.lowest ps m1 w1 _ h hm.variant e3.carries (hm.iface.keep e2.skel)
    (fun v => (e2.parents v).trans (by rw [hm.idle.parents, hm.variant.givens hf])) e4
    (fun v _ cell _ => rfl) rfl (by omega) (by omega)
  rw [hsteps] at k1 k2 k3
  obtain ⟨m2, r1, r2, r3⟩ := idle_after hf k4.2.1 k4.2.2
  have hnn := learnRounds_nonneg hf a.data (start := countsIn a.file ps) (fun v cell => countsIn_nonneg e4 v cell)
  have hd := verdict_decided a most (countsIn a.file ps) k (endingOf (R.code, R.criterion))
  refine ⟨R, ⟨countsIn a.file ps, k, endingOf (R.code, R.criterion)⟩, m2, ?_, ⟨fun v cell => countsIn_nonneg e4 v cell, ?_, ?_⟩, e5, e6, r1,
    ⟨Or.inr ⟨_, hnn k, rfl⟩, r2, r3⟩, ?_, ?_⟩
  · unfold emLearn
    rw [newParameters_spec (hm.variant.valid hf) hm.idle.holds.sound hm.idle.parents, ok_bind, hm.variant.drawn hf, hsteps]
    cases rand with
    | some r =>
      simp only at e1 ⊢
      rw [e1, ok_bind]
      exact k1
    | none =>
      simp only at e1 ⊢
      rw [e1, ok_bind]
      exact k1
  · intro j hj
    rw [← hd, k2 j (Nat.zero_le _) hj]
    rfl
  · rw [← hd, k3]
    rfl
  · unfold Call.curve
    by_cases hx : (Call.net a ⟨countsIn a.file ps, k, endingOf (R.code, R.criterion)⟩).Explains a.data
    · rw [if_pos hx, (k5 hx).1, List.map_map]
      rfl
    · rw [if_neg hx, k6 hx, List.map_map]
      rfl
  · rcases verdict_codes k3 with ⟨h1, h2⟩ | ⟨_, h1, h2 | h2⟩
    · left; exact ⟨h1, h2, by rw [h1, h2]; rfl⟩
    · right; left; exact ⟨h1, h2, by rw [h1, h2]; rfl⟩
    · right; right; exact ⟨h1, h2, by rw [h1, h2]; rfl⟩

/-! ### one round of the loop of `niptrain` -/

theorem estimate_le_one {n : Nat} {count : List Nat → K} (h : ∀ cell, 0 ≤ count cell) {j : Nat} (hj : j < n) (rest : List Nat) : estimate n count (j :: rest) ≤ 1 := by
  unfold estimate
  refine div_le_one_of_le₀ ?_ (Finset.sum_nonneg fun _ _ => h _)
  exact Finset.single_le_sum (f := fun j => count (j :: rest)) (fun _ _ => h _) (Finset.mem_range.mpr hj)

theorem relearn_printable {r : ReadModel K} (hf : r.file.Valid) (hp : r.Printable) {c : Nat → List Nat → K} (hc : ∀ v cell, 0 ≤ c v cell) (m : Model K) :
    (ReadModel.Printable { r with file := r.file.relearn c, model := m }) := by
  have hgiv : ∀ v ∈ r.file.vars, (r.file.givens v).length ≤ 100 := by
    intro v hv
    unfold NetFile.givens
    split
    · rename_i q hq
      exact hp.few q (List.mem_of_find?_eq_some hq)
    · simp
  refine ⟨hp.ids, hp.readable, hp.names, hp.states, hp.next, hp.sizeX, hp.sizeY, ?_, ?_⟩
  · intro q hq
    obtain ⟨v, hv, rfl⟩ := List.mem_map.mp (show q ∈ r.file.vars.map (r.file.learnedTable c) from hq)
    exact hgiv v hv
  · intro q hq hq0 b hb
    obtain ⟨v, hv, rfl⟩ := List.mem_map.mp (show q ∈ r.file.vars.map (r.file.learnedTable c) from hq)
    obtain ⟨idx, hidx, rfl⟩ := List.mem_map.mp hb
    have hin : InRange ((famOrder r.file v).map r.file.card) idx := mem_tuples.mp hidx
    have hm : v ∈ famOrder r.file v := (mem_famOrder hf hv).mpr (List.mem_cons_self ..)
    refine estimate_le_one (hc v) ?_ _
    have hlen : idx.length = (famOrder r.file v).length := by simpa using hin.length_eq
    have hi : (famOrder r.file v).idxOf v < (famOrder r.file v).length := List.idxOf_lt_length_of_mem hm
    have := List.Forall₂.get hin (i := (famOrder r.file v).idxOf v) (by rw [hlen]; exact hi) (by simpa using hi)
    show idx.getD ((famOrder r.file v).idxOf v) 0 < _
    rw [List.getD_eq_getElem _ _ (by rw [hlen]; exact hi)]
    simpa using this

theorem idle_again {h : NetFile K} {m : Model K} (hi : Idle h m) : ∃ m1, m.reset = ok m1 ∧ Idle h m1 ∧ Same m m1 := by
  have hk := hi.holds
  obtain ⟨r1, r2, r3⟩ := reset_spec hk.sound (fun v hv => by rw [(hk.told.lik v hv).1]; exact (hk.told.lik v hv).2.1)
  refine ⟨_, r1, ⟨r3, fun v => (r2.parents v).trans (hi.parents v), fun c x => ?_⟩, r2⟩
  rw [origOf_skel r2.skel, hi.orig]
  have : home (resetState h.net m).tree = home (K := K) m.tree := by
    funext q d
    unfold home
    rw [findClique_skel r2.skel]
  unfold residents
  rw [this]

theorem Ready.printable {r : ReadModel K} (hf : r.file.Valid) (hp : r.Printable) {h : NetFile K} (hv : Variant r.file h) (m : Model K) :
    (ReadModel.Printable { r with file := h, model := m }) := by
  rcases hv with rfl | ⟨c, hc, rfl⟩
  · exact ⟨hp.ids, hp.readable, hp.names, hp.states, hp.next, hp.sizeX, hp.sizeY, hp.few, hp.priors⟩
  · exact relearn_printable hf hp hc m

theorem write_variant (fmt : K → List Char) {r : ReadModel K} {h : NetFile K} (hv : Variant r.file h) (m : Model K) :
    writeModel fmt { r with model := m } = writeModel fmt { r with file := h, model := m } := by
  rcases hv with rfl | ⟨c, hc, rfl⟩
  · rfl
  · rfl

/-- the stopping criterion, as an ending -/
def convergenceEnding : Convergence → Ending
  | .delta => .converged
  | .likelihood => .badLuck
  | .iterations => .exhausted

theorem trainBatch_spec {a : Lesson K} (hf : a.file.Valid) (htm : a.file.Temporal) (ha : a.file.Acyclic) {i : Interface} (hi : IsInterface a.file i) {series : List TimeSeries}
    (hser : ∀ ts ∈ series, About a.file ts) (hdata : a.data = evidenceOf (fun _ => true) series)
    (hg : Logs.Law ⟨a.log, a.lowest⟩) (hg1 : ∀ b, 0 < b → b ≤ 1 → a.log b ≤ 0) (hrand : ∀ n k i j, 0 ≤ a.rand n k i j)
    {fmt : K → List Char} (hfmt : ∀ a, 0 ≤ a → a ≤ 1 → IsNumber (fmt a) ∧ (fmt a).length ≤ 40) {r : ReadModel K} (hr : r.file = a.file) (hp : r.Printable)
    {st : Training K} {h : NetFile K} (hm : Ready a.file h i st.model) :
    ∃ (c : Call K) (st' : Training K), trainBatch ⟨a.log, a.lowest⟩ fmt r i series a.rand a.threshold st = ok (if c.ending = .badLuck then NIP_ERROR_BAD_LUCK else 0, st') ∧
      c.Right a (min 32 st.left) ∧ (st.random = true → c.start = countsIn a.file (a.file.drawn (a.rand st.run st.batch))) ∧
      (st.random = false → h.Normalised → GoesOn a.file h c.start) ∧ Ready a.file (c.net a) i st'.model ∧ st'.run = st.run ∧ st'.batch = st.batch ∧
      st'.curve = st.curve ++ c.curve a ∧ convergenceEnding st'.criterion = (convergenceEnding st.criterion).since c.ending ∧
      st'.random = (st.random && decide ((convergenceEnding st.criterion).since c.ending ≠ .exhausted)) ∧
      (0 < st'.left ↔ ¬ ((convergenceEnding st.criterion).since c.ending = .converged ∨ st.left ≤ 32)) ∧ (0 < st'.left → st'.left = st.left - 32) := by
  obtain ⟨cur, hcur⟩ : ∃ cur, cur = if st.left > batchIterations then batchIterations else st.left := ⟨_, rfl⟩
  have hb : batchIterations = 32 := rfl
  have hcm : cur = min 32 st.left := by
    rw [hcur, hb]
    split <;> omega
  obtain ⟨R, c, m1, k1, k2, k3, k4, k5, k6, k7, k8⟩ := call_spec hf htm ha hi hser hdata rfl hg hg1 hm
    (rand := if st.random then some (a.rand st.run st.batch) else none) (by
      intro q hq i j
      split at hq
      · cases hq; exact hrand _ _ _ _
      · cases hq) cur
  have hvar : Variant r.file (c.net a) := by rw [hr]; exact k6.variant
  obtain ⟨tab, out, m2, _, _, w1, w2, _, w4⟩ := writeModel_laid hfmt (r := { r with file := c.net a, model := R.model }) (k6.variant.valid hf)
    (Ready.printable (by rw [hr]; exact hf) hp hvar R.model) k5 k6.idle
  rw [← write_variant fmt hvar] at w1
  have hsteps : (series.map (fun ts => ts.length)).sum = a.steps := by
    unfold Lesson.steps
    rw [hdata]
    simp [evidenceOf, Function.comp_def]
  have hready : Ready a.file (c.net a) i m2 := ⟨k6.variant, w2, k6.iface.keep w4.skel⟩
  have hcode : R.code = 0 ∨ R.code = NIP_ERROR_BAD_LUCK := by
    rcases k8 with h | h | h
    · exact Or.inr h.1
    · exact Or.inl h.1
    · exact Or.inl h.1
  have hsince : convergenceEnding (R.criterion.getD st.criterion) = (convergenceEnding st.criterion).since c.ending := by
    rcases k8 with h | h | h
    · rw [h.2.1, h.2.2]; rfl
    · rw [h.2.1, h.2.2]; rfl
    · rw [h.2.1, h.2.2]; rfl
  have hde : ∀ x : Convergence, (x = .delta ↔ convergenceEnding x = .converged) ∧ (x = .iterations ↔ convergenceEnding x = .exhausted) := by
    intro x; cases x <;> simp [convergenceEnding]
  refine ⟨c, { st with
      left := if R.criterion.getD st.criterion = .delta then 0 else st.left - cur
      random := if R.criterion.getD st.criterion = .iterations then false else st.random
      criterion := R.criterion.getD st.criterion, curve := st.curve ++ R.curve.map (fun b => b / (a.steps : K)), model := m2, file := some out }, ?_, by rw [← hcm]; exact k2, ?_, ?_,
    hready, rfl, rfl, by rw [k7], hsince, ?_, ?_, ?_⟩
  · unfold trainBatch
    rw [← hcur]
    simp only
    rw [k1, ok_bind, if_neg (not_not.mpr hcode), w1]
    simp only [ok_bind]
    rw [hsteps]
    have : R.code = if c.ending = .badLuck then NIP_ERROR_BAD_LUCK else 0 := by
      rcases k8 with h | h | h
      · rw [if_pos h.2.2]; exact h.1
      · rw [if_neg (by rw [h.2.2]; decide)]; exact h.1
      · rw [if_neg (by rw [h.2.2]; decide)]; exact h.1
    rw [← this]
  · intro ht
    exact k3 _ (by rw [if_pos ht])
  · intro ht
    exact k4 (by rw [ht]; rfl)
  · simp only
    by_cases h1 : R.criterion.getD st.criterion = .iterations
    · rw [if_pos h1, ← hsince, (hde _).2.mp h1]; simp
    · rw [if_neg h1, ← hsince]
      have : convergenceEnding (R.criterion.getD st.criterion) ≠ .exhausted := fun h => h1 ((hde _).2.mpr h)
      simp [this]
  · simp only
    rw [← hsince]
    by_cases h1 : R.criterion.getD st.criterion = .delta
    · rw [if_pos h1, (hde _).1.mp h1]; simp
    · have h2 : convergenceEnding (R.criterion.getD st.criterion) ≠ .converged := fun h => h1 ((hde _).1.mpr h)
      rw [if_neg h1]
      simp only [h2, false_or]
      omega
  · simp only
    by_cases h1 : R.criterion.getD st.criterion = .delta
    · rw [if_pos h1]; simp
    · rw [if_neg h1]
      omega

/-! ### the loops -/

theorem Right.explains {a : Lesson K} {most : Int} {c : Call K} (h : c.Right a most) (hb : c.ending ≠ .badLuck) : (c.net a).Explains a.data ∧ 2 ≤ c.last := by
  have hl := h.last
  unfold Call.decided at hl
  by_cases h1 : (c.netAt a c.last).Explains a.data
  · refine ⟨h1, ?_⟩
    simp only [h1, not_true_eq_false, if_false] at hl
    by_cases h2 : c.scoreAt a c.last + (a.steps : K) * a.threshold < c.scoreBefore a c.last
    · simp only [h2, if_true, Option.some.injEq] at hl
      exact absurd hl.symm hb
    · simp only [h2, if_false] at hl
      by_contra h3
      simp only [not_le.mp h3, if_true] at hl
      cases hl
  · simp only [h1, not_false_eq_true, if_true, Option.some.injEq] at hl
    exact absurd hl.symm hb

theorem curve_last {a : Lesson K} {most : Int} {c : Call K} (h : c.Right a most) (hb : c.ending ≠ .badLuck) (old : List K) : (old ++ c.curve a).getLastD 0 = c.mean a := by
  have : c.curve a = (List.range c.last).map (fun j => c.scoreAt a j / a.steps) ++ [c.mean a] := by
    unfold Call.curve
    rw [if_pos (Right.explains h hb).1, List.range_succ, List.map_append]
    rfl
  rw [this, ← List.append_assoc]
  simp

theorem trainLoop_spec {a : Lesson K} (hf : a.file.Valid) (htm : a.file.Temporal) (ha : a.file.Acyclic) {i : Interface} (hi : IsInterface a.file i) {series : List TimeSeries}
    (hser : ∀ ts ∈ series, About a.file ts) (hdata : a.data = evidenceOf (fun _ => true) series)
    (hg : Logs.Law ⟨a.log, a.lowest⟩) (hg1 : ∀ b, 0 < b → b ≤ 1 → a.log b ≤ 0) (hrand : ∀ n k i j, 0 ≤ a.rand n k i j)
    {fmt : K → List Char} (hfmt : ∀ a, 0 ≤ a → a ≤ 1 → IsNumber (fmt a) ∧ (fmt a).length ≤ 40) {r : ReadModel K} (hr : r.file = a.file) (hp : r.Printable)
    (fuel : Nat) : ∀ (st : Training K) (h : NetFile K), Ready a.file h i st.model →
      (trainLoop ⟨a.log, a.lowest⟩ fmt r i series a.rand a.threshold a.least a.most fuel st = ok none ∧
        ∃ failed, AreRuns a st.run st.batch st.random (convergenceEnding st.criterion) st.left h failed ∧ (∀ cs ∈ failed, Fails a cs) ∧
          fuel < failed.flatten.length + callsIn (if failed = [] then st.left else a.most)) ∨
      ∃ st' failed good c, trainLoop ⟨a.log, a.lowest⟩ fmt r i series a.rand a.threshold a.least a.most fuel st = ok (some (false, st')) ∧
        AreRuns a st.run st.batch st.random (convergenceEnding st.criterion) st.left h (failed ++ [good]) ∧ (∀ cs ∈ failed, Fails a cs) ∧ ¬ Fails a good ∧
        good.getLast? = some c ∧ Ready a.file (c.net a) i st'.model ∧ st'.curve = (if failed = [] then st.curve else []) ++ good.flatMap (Call.curve a) := by
  induction fuel with
  | zero =>
    intro st h hm
    left
    exact ⟨rfl, [], trivial, by simp, by simp [callsIn]⟩
  | succ fuel ih =>
    intro st h hm
    obtain ⟨c, st1, b1, b2, b3, b4, b5, b6, b7, b8, b9, b10, b11, b12⟩ := trainBatch_spec hf htm ha hi hser hdata hg hg1 hrand hfmt hr hp hm
    have hcode : ¬ ¬ ((if c.ending = .badLuck then NIP_ERROR_BAD_LUCK else 0) = 0 ∨ (if c.ending = .badLuck then NIP_ERROR_BAD_LUCK else 0) = NIP_ERROR_BAD_LUCK) := by
      split <;> simp
    unfold trainLoop
    rw [b1, ok_bind]
    simp only
    rw [if_neg hcode]
    by_cases hleft : st1.left > 0
    · rw [if_pos hleft]
      have hgo := b11.mp hleft
      have hl := b12 hleft
      have hrun : ∀ cs, IsRun a st1.run (st1.batch + 1) st1.random (convergenceEnding st1.criterion) st1.left (c.net a) cs →
          IsRun a st.run st.batch st.random (convergenceEnding st.criterion) st.left h (c :: cs) := by
        intro cs hcs
        refine ⟨b2, b3, b4, ?_⟩
        rw [if_neg hgo, ← b6, ← b7, ← b9, ← hl]
        rw [b10, ← b9] at hcs
        exact hcs
      have hend : ∀ cs, endingAfter (convergenceEnding st1.criterion) cs = endingAfter (convergenceEnding st.criterion) (c :: cs) := by
        intro cs
        unfold endingAfter
        rw [List.foldl_cons, b9]
      have hnet : ∀ cs, netAfter a (c.net a) cs = netAfter a h (c :: cs) := by
        intro cs
        unfold netAfter
        cases cs with
        | nil => rfl
        | cons d ds =>
          rw [List.getLast?_cons_cons]
          obtain ⟨e, he⟩ : ∃ e, (d :: ds).getLast? = some e := ⟨_, List.getLast?_eq_some_getLast (by simp)⟩
          rw [he]
          rfl
      have hruns : ∀ cs rest, AreRuns a st1.run (st1.batch + 1) st1.random (convergenceEnding st1.criterion) st1.left (c.net a) (cs :: rest) →
          AreRuns a st.run st.batch st.random (convergenceEnding st.criterion) st.left h ((c :: cs) :: rest) := by
        rintro cs rest ⟨q1, q2⟩
        refine ⟨hrun cs q1, ?_⟩
        rw [← hend, ← hnet, ← b6]
        exact q2
      have hne : ∀ cs rest, AreRuns a st1.run (st1.batch + 1) st1.random (convergenceEnding st1.criterion) st1.left (c.net a) (cs :: rest) → cs ≠ [] := by
        rintro cs rest ⟨q1, _⟩ rfl
        exact q1
      have hlast : ∀ cs, cs ≠ [] → (c :: cs).getLast? = cs.getLast? := by
        intro cs hcs
        cases cs with
        | nil => exact absurd rfl hcs
        | cons d ds => rw [List.getLast?_cons_cons]
      have hfail : ∀ cs, cs ≠ [] → (Fails a (c :: cs) ↔ Fails a cs) := by
        intro cs hcs
        unfold Fails
        rw [hlast cs hcs]
      rcases ih { st1 with batch := st1.batch + 1 } (c.net a) b5 with ⟨d1, failed, d2, d3, d4⟩ | ⟨st', failed, good, e, d1, d2, d3, d4, d5, d6, d7⟩
      · left
        refine ⟨d1, ?_⟩
        cases failed with
        | nil =>
          refine ⟨[], trivial, by simp, ?_⟩
          simp only [if_true, List.flatten_nil, List.length_nil] at d4 ⊢
          rw [hl] at d4
          unfold callsIn at d4 ⊢
          omega
        | cons cs rest =>
          have hcs := hne cs rest d2
          refine ⟨(c :: cs) :: rest, hruns cs rest d2, ?_, ?_⟩
          · intro x hx
            rcases List.mem_cons.mp hx with rfl | hx
            · exact (hfail cs hcs).mpr (d3 cs (by simp))
            · exact d3 x (by simp [hx])
          · rw [if_neg (by simp)] at d4 ⊢
            simp only [List.flatten_cons, List.length_append, List.length_cons] at d4 ⊢
            omega
      · right
        cases failed with
        | nil =>
          have hcs := hne good [] d2
          refine ⟨st', [], c :: good, e, d1, hruns good [] d2, by simp, by rw [hfail good hcs]; exact d4, by rw [hlast good hcs]; exact d5, d6, ?_⟩
          rw [d7, if_pos rfl, if_pos rfl, List.flatMap_cons, ← List.append_assoc]
          simp only
          rw [b8]
        | cons cs rest =>
          have hcs := hne cs _ d2
          refine ⟨st', (c :: cs) :: rest, good, e, d1, hruns cs _ d2, ?_, d4, d5, d6, ?_⟩
          · intro x hx
            rcases List.mem_cons.mp hx with rfl | hx
            · exact (hfail cs hcs).mpr (d3 cs (by simp))
            · exact d3 x (by simp [hx])
          · rw [d7, if_neg (by simp), if_neg (by simp)]
    · rw [if_neg hleft]
      have hover : (convergenceEnding st.criterion).since c.ending = .converged ∨ st.left ≤ 32 := by
        by_contra hx
        exact hleft (b11.mpr hx)
      have hrun : IsRun a st.run st.batch st.random (convergenceEnding st.criterion) st.left h [c] := by
        refine ⟨b2, b3, b4, ?_⟩
        rw [if_pos hover]
      have hfail : Fails a [c] ↔ c.ending = .badLuck ∨ c.mean a < a.least := by
        unfold Fails
        simp
      have hdec : ((if c.ending = .badLuck then NIP_ERROR_BAD_LUCK else 0) = NIP_ERROR_BAD_LUCK ∨ st1.curve.getLastD 0 < a.least) ↔ Fails a [c] := by
        rw [hfail]
        by_cases hb : c.ending = .badLuck
        · simp [hb]
        · rw [if_neg hb, b8, curve_last b2 hb]
          simp only [hb, false_or]
          constructor
          · rintro (h | h)
            · cases h
            · exact h
          · exact Or.inr
      by_cases hbad : Fails a [c]
      · rw [if_pos (hdec.mpr hbad)]
        have hruns : ∀ rest, AreRuns a (st1.run + 1) 0 true (convergenceEnding st1.criterion) a.most (c.net a) rest →
            AreRuns a st.run st.batch st.random (convergenceEnding st.criterion) st.left h ([c] :: rest) := by
          intro rest hq
          refine ⟨hrun, ?_⟩
          have : endingAfter (convergenceEnding st.criterion) [c] = convergenceEnding st1.criterion := b9.symm
          rw [this, ← b6]
          exact hq
        rcases ih { st1 with run := st1.run + 1, batch := 0, left := a.most, random := true, curve := [] } (c.net a) b5 with
          ⟨d1, failed, d2, d3, d4⟩ | ⟨st', failed, good, e, d1, d2, d3, d4, d5, d6, d7⟩
        · left
          refine ⟨d1, [c] :: failed, hruns failed d2, ?_, ?_⟩
          · intro x hx
            rcases List.mem_cons.mp hx with rfl | hx
            · exact hbad
            · exact d3 x hx
          · rw [if_neg (by simp)]
            simp only [ite_self, List.flatten_cons, List.length_append, List.length_cons, List.length_nil] at d4 ⊢
            omega
        · right
          refine ⟨st', [c] :: failed, good, e, d1, hruns _ d2, ?_, d4, d5, d6, ?_⟩
          · intro x hx
            rcases List.mem_cons.mp hx with rfl | hx
            · exact hbad
            · exact d3 x hx
          · rw [d7]
            simp
      · rw [if_neg (fun hx => hbad (hdec.mp hx))]
        right
        refine ⟨_, [], [c], c, rfl, ⟨hrun, trivial⟩, by simp, hbad, rfl, b5, ?_⟩
        simp [b8]

end Nip
