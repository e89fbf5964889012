import Verif.StepMemory
import Verif.Spec.StepMemory
import Verif.Props.HistoryMemory
import Verif.Props.Question
import Verif.Spec.Series

/-!
# C114: entering a time step or a named observation when memory runs out

`fails i` says that request number `i` for memory is refused.  The calls come after any history of calls in the same run.
-/

namespace Nip.Props

open Nip Res Spec

variable {K : Type} [Field K] [LinearOrder K] [IsStrictOrderedRing K]

/-- what is known of the model after a run -/
theorem run_known {ptr : Nat} {f : NetFile K} (hf : f.Valid) (hall : Furnished f) {fails : Nat → Bool} {w : Loans} {ops : List (Op K)}
    (ho : ∀ op ∈ ops, op.Valid f.net) {m : Model K} {w' : Loans} (hrun : NetFile.runFileIn fails ptr f w ops = ok (m, w')) :
    (∃ wd, Model.Holds f.net m wd) ∧ Model.Settled f.net.vars m ∧ (m.tree.sepsets.filter (fun s => s.vars ≠ [])).length = bordersOf ptr f := by
  have hi : InferenceServed fails (bordersOf ptr f) w.tried ops := by
    by_contra hc
    rw [(C113_undefined ptr hf hall fails w ho).mpr hc] at hrun
    cases hrun
  obtain ⟨m0, _, h2, h3, h4, _, h6⟩ := build_parts_in ptr hf hall
  obtain ⟨m1, g1, g2, g3⟩ := (Model.performAllIn_spec fails ops w h2 h3 h4 ho).1 hi
  rw [h6, g2] at hrun
  simp only [ok.injEq, Prod.mk.injEq] at hrun
  obtain ⟨rfl, _⟩ := hrun
  obtain ⟨m2, k1, k2, k3⟩ := Model.performAll_spec _ h2 (fun op hop => ho op (Model.servedCalls_sub _ _ _ _ op hop))
  rw [g1] at k1
  simp only [ok.injEq] at k1
  subst k1
  exact ⟨⟨_, k3⟩, g3, (Model.seps_same k2.1).trans h4⟩

theorem keptValues_snoc (fails : Nat → Bool) (t : Nat) (l : List (Nat × Int)) (p : Nat × Int) :
    keptValues fails t (l ++ [p]) = keptValues fails t l ++ (if fails (t + l.length) then [] else [p]) := by
  unfold keptValues
  rw [List.zipIdx_append, List.filter_append, List.map_append]
  congr 1
  cases h : fails (t + l.length) <;> simp [h]

theorem presentValues_succ (marked : Nat → Bool) {observed : List Nat} {row : List Int} {i : Nat} (hi : i < observed.length) (hir : i < row.length) (hl : row.length = observed.length) :
    presentValues marked (observed.take (i + 1)) (row.take (i + 1)) =
      presentValues marked (observed.take i) (row.take i) ++ (if marked observed[i] && decide (0 ≤ row[i]) then [(observed[i], row[i])] else []) := by
  unfold presentValues
  rw [List.take_succ_eq_append_getElem hi, List.take_succ_eq_append_getElem hir, List.zip_append (by simp; omega), List.filter_append]
  congr 1
  simp [List.filter_cons]

theorem performAll_snoc {m m1 : Model K} {l : List (Op K)} {op : Op K} (h : m.performAll l = ok m1) : m.performAll (l ++ [op]) = m1.perform op := by
  unfold Model.performAll at h ⊢
  rw [List.foldlM_append, h, ok_bind, List.foldlM_cons]
  cases e : m1.perform op with
  | ub => rfl
  | ok m2 => rfl

/-- the observations of some values -/
def observations (K : Type) (values : List (Nat × Int)) : List (Op K) := values.map (fun p => .observe p.1 p.2)

/-- **C114**, `insert_ts_step`: one request for every value that is present and marked.  It reports success whichever are refused; the model is the one of unlimited memory with only the
values whose requests were granted, and no more memory is in use than before. -/
theorem C114_step (ptr : Nat) {f : NetFile K} (hf : f.Valid) (hall : Furnished f) (fails : Nat → Bool) (w : Loans) {ops : List (Op K)}
    (ho : ∀ op ∈ ops, op.Valid f.net) {m : Model K} {w' : Loans} (hrun : NetFile.runFileIn fails ptr f w ops = ok (m, w')) (marked : Nat → Bool) {ts : TimeSeries}
    (hts : ts.WellFormed) (hsub : ∀ v ∈ ts.observed, v ∈ f.vars) {t : Nat} {row : List Int} (hrow : ts.data[t]? = some row) :
    ∃ m', m.performAll (observations K (keptValues fails w'.tried (presentValues marked ts.observed row))) = ok m' ∧
      insertStepIn fails marked ts (t : Int) m w' =
        ok ((0, m'), { tried := w'.tried + (presentValues marked ts.observed row).length, held := w'.held }) := by
  obtain ⟨⟨wd, h1⟩, h2, h3⟩ := run_known hf hall ho hrun
  obtain ⟨htd, hrd⟩ := List.getElem?_eq_some_iff.mp hrow
  have hrl : row.length = ts.observed.length := hts.row row (by rw [← hrd]; exact List.getElem_mem _)
  have hnum : ((ts.numVars : Int) - ts.numHidden).toNat = ts.observed.length := by rw [hts.hidden]; simp
  unfold insertStepIn
  rw [if_neg (by have := hts.rows; omega), hnum]
  obtain ⟨st, e1, e2, e3, e4, e5, e6⟩ := loop_inv (n := ts.observed.length) (s := (m, w')) (f := fun i (st : Model K × Loans) => do
      let v ← rd ts.observed i
      if marked v then do
        let row ← rd ts.data (t : Int).toNat
        let d ← rd row i
        if 0 ≤ d then do
          let (r, w) ← st.1.enterIndexObservationIn fails st.2 v d
          ok (r.2, w)
        else ok st
      else ok st)
    (fun i st => m.performAll (observations K (keptValues fails w'.tried (presentValues marked (ts.observed.take i) (row.take i)))) = ok st.1 ∧
      st.2 = { tried := w'.tried + (presentValues marked (ts.observed.take i) (row.take i)).length, held := w'.held } ∧
      (∃ wd, Model.Holds f.net st.1 wd) ∧ Model.Settled f.net.vars st.1 ∧ (st.1.tree.sepsets.filter (fun s => s.vars ≠ [])).length = bordersOf ptr f)
    ⟨rfl, rfl, ⟨wd, h1⟩, h2, h3⟩
    (by
      rintro i hi ⟨m1, w1⟩ ⟨k1, k2, ⟨wd1, k3⟩, k4, k5⟩
      simp only at k1 k2 k3 k4 k5
      have hir : i < row.length := by omega
      have hob : ts.observed[i] ∈ f.net.vars := hsub _ (List.getElem_mem hi)
      rw [presentValues_succ marked hi hir (by omega)]
      by_cases hm : marked ts.observed[i]
      · by_cases hd : 0 ≤ row[i]
        · simp only [hm, hd, decide_true, Bool.and_self, if_true]
          rw [keptValues_snoc]
          obtain ⟨m2, a1, a2, a3, a4⟩ := Model.performIn_spec fails w1 k3 k4 k5 (op := .observe ts.observed[i] row[i]) hob
          obtain ⟨m2', b1, b2, b3⟩ := Model.perform_spec k3 (op := .observe ts.observed[i] row[i]) hob
          rw [a1] at b1
          simp only [ok.injEq] at b1
          subst b1
          have hreq : requests (bordersOf ptr f) (Op.observe ts.observed[i] row[i] : Op K) = 1 := if_neg (by omega)
          rw [hreq, Model.served_one] at a3 a4
          have ht1 : w1.tried = w'.tried + (presentValues marked (ts.observed.take i) (row.take i)).length := by rw [k2]
          have hstep : ∀ r, Model.performIn fails (m1, w1) (.observe ts.observed[i] row[i]) = ok r → (do
              let v ← rd ts.observed i
              if marked v then do
                let row ← rd ts.data (t : Int).toNat
                let d ← rd row i
                if 0 ≤ d then do
                  let (r, w) ← m1.enterIndexObservationIn fails w1 v d
                  ok (r.2, w)
                else ok (m1, w1)
              else ok (m1, w1)) = ok r := by
            intro r hr
            simp only [rd_lt hi, ok_bind, hm, if_true, Int.toNat_natCast, rd_lt htd, hrd, rd_lt hir, hd]
            exact hr
          rw [← ht1]
          cases hg : fails w1.tried with
          | false =>
            refine ⟨_, hstep _ (a3 (by rw [hg]; rfl)), ?_, ?_, ⟨_, b3⟩, a2, (Model.seps_same b2.1).trans k5⟩
            · simp only [Bool.false_eq_true, if_false]
              unfold observations at k1 ⊢
              rw [List.map_append]
              exact (performAll_snoc k1).trans a1
            · rw [k2]
              simp [questionsAsked, Nat.add_assoc]
          | true =>
            refine ⟨_, hstep _ ((a4 (by rw [hg]; rfl)).2 (by simp)), ?_, ?_, ⟨_, k3⟩, k4, k5⟩
            · simp only [if_true, List.append_nil]
              exact k1
            · rw [k2]
              simp [Nat.add_assoc]
        · have hc : (marked ts.observed[i] && decide (0 ≤ row[i])) = false := by simp [hd]
          rw [hc]
          simp only [Bool.false_eq_true, if_false, List.append_nil]
          refine ⟨(m1, w1), ?_, k1, k2, ⟨wd1, k3⟩, k4, k5⟩
          simp only [rd_lt hi, ok_bind, hm, if_true, Int.toNat_natCast, rd_lt htd, hrd, rd_lt hir, hd, if_false]
      · have hc : (marked ts.observed[i] && decide (0 ≤ row[i])) = false := by simp [hm]
        rw [hc]
        simp only [Bool.false_eq_true, if_false, List.append_nil]
        refine ⟨(m1, w1), ?_, k1, k2, ⟨wd1, k3⟩, k4, k5⟩
        simp only [rd_lt hi, ok_bind, hm]
        rfl)
  obtain ⟨m', w1⟩ := st
  have ht2 : row.take ts.observed.length = row := by rw [← hrl, List.take_length]
  rw [List.take_length, ht2] at e2 e3
  refine ⟨m', e2, ?_⟩
  rw [e1]
  simp only at e3
  subst e3
  rfl

/-- **C114**, what the step does with unlimited memory: it enters all values that are present and marked. -/
theorem C114_step_unlimited (ptr : Nat) {f : NetFile K} (hf : f.Valid) {ops : List (Op K)} (ho : ∀ op ∈ ops, op.Valid f.net) {m : Model K}
    (hrun : NetFile.runFile ptr f ops = ok m) (marked : Nat → Bool) {ts : TimeSeries} (hts : ts.WellFormed) (hsub : ∀ v ∈ ts.observed, v ∈ f.vars) {t : Nat} {row : List Int}
    (hrow : ts.data[t]? = some row) :
    ∃ m', m.performAll (observations K (presentValues marked ts.observed row)) = ok m' ∧ insertStep marked ts (t : Int) m = ok (0, m') := by
  obtain ⟨m1, r1, h1, _⟩ := runFile_spec ptr hf ho
  rw [hrun] at r1
  simp only [ok.injEq] at r1
  subst r1
  obtain ⟨htd, hrd⟩ := List.getElem?_eq_some_iff.mp hrow
  have hrl : row.length = ts.observed.length := hts.row row (by rw [← hrd]; exact List.getElem_mem _)
  have hnum : ((ts.numVars : Int) - ts.numHidden).toNat = ts.observed.length := by rw [hts.hidden]; simp
  unfold insertStep
  rw [if_neg (by have := hts.rows; omega), hnum]
  obtain ⟨m', e1, e2, _⟩ := loop_inv (n := ts.observed.length) (s := m) (f := fun i (m : Model K) => do
      let v ← rd ts.observed i
      if marked v then do
        let row ← rd ts.data (t : Int).toNat
        let d ← rd row i
        if 0 ≤ d then do
          let r ← m.enterIndexObservation v d
          ok r.2
        else ok m
      else ok m)
    (fun i m' => m.performAll (observations K (presentValues marked (ts.observed.take i) (row.take i))) = ok m' ∧ ∃ wd, Model.Holds f.net m' wd)
    ⟨rfl, _, h1⟩
    (by
      rintro i hi m1 ⟨k1, wd1, k3⟩
      have hir : i < row.length := by omega
      have hob : ts.observed[i] ∈ f.net.vars := hsub _ (List.getElem_mem hi)
      rw [presentValues_succ marked hi hir (by omega)]
      by_cases hm : marked ts.observed[i]
      · by_cases hd : 0 ≤ row[i]
        · simp only [hm, hd, decide_true, Bool.and_self, if_true]
          obtain ⟨m2, b1, _, b3⟩ := Model.perform_spec k3 (op := .observe ts.observed[i] row[i]) hob
          refine ⟨m2, ?_, ?_, _, b3⟩
          · simp only [rd_lt hi, ok_bind, hm, if_true, Int.toNat_natCast, rd_lt htd, hrd, rd_lt hir, hd]
            exact b1
          · unfold observations at k1 ⊢
            rw [List.map_append]
            exact (performAll_snoc k1).trans b1
        · have hc : (marked ts.observed[i] && decide (0 ≤ row[i])) = false := by simp [hd]
          rw [hc]
          simp only [Bool.false_eq_true, if_false, List.append_nil]
          refine ⟨m1, ?_, k1, wd1, k3⟩
          simp only [rd_lt hi, ok_bind, hm, if_true, Int.toNat_natCast, rd_lt htd, hrd, rd_lt hir, hd, if_false]
      · have hc : (marked ts.observed[i] && decide (0 ≤ row[i])) = false := by simp [hm]
        rw [hc]
        simp only [Bool.false_eq_true, if_false, List.append_nil]
        refine ⟨m1, ?_, k1, wd1, k3⟩
        simp only [rd_lt hi, ok_bind, hm]
        rfl)
  have ht2 : row.take ts.observed.length = row := by rw [← hrl, List.take_length]
  rw [List.take_length, ht2] at e2
  exact ⟨m', e2, by rw [e1]; rfl⟩

/-- **C114**, everything lost: if all requests are refused, the step reports success and the model is as before. -/
theorem C114_step_lost (ptr : Nat) {f : NetFile K} (hf : f.Valid) (hall : Furnished f) (fails : Nat → Bool) (w : Loans) {ops : List (Op K)}
    (ho : ∀ op ∈ ops, op.Valid f.net) {m : Model K} {w' : Loans} (hrun : NetFile.runFileIn fails ptr f w ops = ok (m, w')) (marked : Nat → Bool) {ts : TimeSeries}
    (hts : ts.WellFormed) (hsub : ∀ v ∈ ts.observed, v ∈ f.vars) {t : Nat} {row : List Int} (hrow : ts.data[t]? = some row) (hlost : ∀ i, w'.tried ≤ i → fails i = true) :
    ∃ w'', insertStepIn fails marked ts (t : Int) m w' = ok ((0, m), w'') := by
  obtain ⟨m', h1, h2⟩ := C114_step ptr hf hall fails w ho hrun marked hts hsub hrow
  have hk : keptValues fails w'.tried (presentValues marked ts.observed row) = [] := by
    unfold keptValues
    rw [List.map_eq_nil_iff, List.filter_eq_nil_iff]
    intro p _
    rw [hlost _ (by omega)]
    simp
  rw [hk] at h1
  have : (ok m : Res (Model K)) = ok m' := h1
  simp only [ok.injEq] at this
  subst this
  exact ⟨_, h2⟩

/-- **C114**, `insert_hard_evidence` for a known variable: `k` is 1 if it has the state and 0 otherwise. -/
theorem C114_named (ptr : Nat) {f : NetFile K} (hf : f.Valid) (hall : Furnished f) (fails : Nat → Bool) (w : Loans) {ops : List (Op K)}
    (ho : ∀ op ∈ ops, op.Valid f.net) {m : Model K} {w' : Loans} (hrun : NetFile.runFileIn fails ptr f w ops = ok (m, w')) {nodes : List NodeRec} (hr : Records f nodes)
    {varname : List Char} {n : NodeRec} (hn : modelVariable nodes varname = some n) (hd : n.states.Nodup) (state : List Char) {k b : Nat}
    (hk : k = if state ∈ n.states then 1 else 0) (hb : b = bordersOf ptr f) :
    ∃ m0 m1, m.makeConsistent = ok m0 ∧ insertHard nodes varname state m = ok (0, m1) ∧
      (Spec.Refused fails (w'.tried + k) (w'.tried + k + 4 * b) → insertHardIn fails nodes varname state m w' = ub) ∧
      (Granted fails (w'.tried + k) (w'.tried + k + 4 * b) →
        (Granted fails w'.tried (w'.tried + k) → insertHardIn fails nodes varname state m w' = ok ((0, m1), { tried := w'.tried + k + 4 * b, held := w'.held })) ∧
        (Spec.Refused fails w'.tried (w'.tried + k) → insertHardIn fails nodes varname state m w' = ok ((ENOMEM, m0), { tried := w'.tried + k + 4 * b, held := w'.held }))) := by
  obtain ⟨⟨wd, h1⟩, h2, h3⟩ := run_known hf hall ho hrun
  have hmem := List.mem_of_find?_eq_some hn
  have hv : n.id ∈ f.net.vars := by
    show n.id ∈ f.vars
    rw [← hr.ids]
    exact List.mem_map.mpr ⟨n, hmem, rfl⟩
  have hc : (m.var n.id).card = f.card n.id := h1.sound.card n.id
  -- inference after a call that leaves `x`
  have hcons : ∀ (x : Model K) (wx : World K) (u : Loans), Model.Holds f.net x wx → (x.tree.sepsets.filter (fun s => s.vars ≠ [])).length = bordersOf ptr f →
      ∃ x', x.makeConsistent = ok x' ∧ (Granted fails u.tried (u.tried + 4 * b) → x.makeConsistentIn fails u = ok (x', ⟨u.tried + 4 * b, u.held⟩)) ∧
        (Spec.Refused fails u.tried (u.tried + 4 * b) → x.makeConsistentIn fails u = ub) := by
    intro x wx u hx hbx
    obtain ⟨x', c, hc, c1, c2⟩ := Model.makeConsistentIn_spec fails u hx
    rw [hbx, ← hb] at hc
    subst hc
    refine ⟨x', c1, fun hg => ?_, fun hrf => ?_⟩
    · rcases c2 with ⟨c2, _⟩ | ⟨_, c3⟩
      · exact c2
      · exact absurd c3 (not_refused hg)
    · rcases c2 with ⟨_, c3⟩ | ⟨c2, _⟩
      · exact absurd hrf (not_refused c3)
      · exact c2
  have hnone : ∀ a, ¬ Spec.Refused fails a (a + 0) := by rintro a ⟨i, i1, i2, _⟩; omega
  by_cases hs : state ∈ n.states
  · rw [if_pos hs] at hk
    subst hk
    have hidx : Model.stateIndex (m.var n.id).card (some (n.states.map String.ofList)) (String.ofList state) = ok (some (n.states.idxOf state)) := by
      refine stateIndex_known ?_ ?_ ?_
      · rw [List.length_map, hc]; exact hr.states n hmem
      · exact List.Nodup.map (fun a b hab => String.ofList_injective hab) hd
      · rw [List.getElem?_map, List.getElem?_idxOf hs]; rfl
    obtain ⟨m2, a1, a2, a3⟩ := Model.enterIndexObservation_spec h1 hv ((n.states.idxOf state : Nat) : Int)
    obtain ⟨m0, z1, z2, z3⟩ := hcons m wd ⟨w'.tried + 1, w'.held⟩ h1 h3
    obtain ⟨m1, y1, y2, y3⟩ := hcons m2 _ ⟨w'.tried + 1, w'.held⟩ a3 ((Model.seps_same a2.1).trans h3)
    have hobs := C113_observation ptr hf hall fails w ho hrun hv (i := ((n.states.idxOf state : Nat) : Int)) (by omega)
    have hplain : insertHard nodes varname state m = ok (0, m1) := by
      unfold insertHard
      rw [hn]
      simp only
      unfold Model.enterObservation
      rw [hidx]
      simp only [ok_bind]
      rw [a1]
      simp only [ok_bind]
      rw [y1]
      rfl
    have hin : insertHardIn fails nodes varname state m w' = (m.enterIndexObservationIn fails w' n.id ((n.states.idxOf state : Nat) : Int) >>= fun r =>
        r.1.2.makeConsistentIn fails r.2 >>= fun s => ok ((r.1.1, s.1), s.2)) := by
      unfold insertHardIn
      rw [hn]
      simp only
      unfold Model.enterObservationIn
      rw [hidx]
      rfl
    refine ⟨m0, m1, z1, hplain, ?_⟩
    rw [hin]
    cases hg : fails w'.tried with
    | true =>
      rw [hobs.2 hg]
      simp only [ok_bind]
      refine ⟨fun hrf => by rw [z3 hrf]; rfl, fun hgr => ⟨fun h => ?_, fun _ => by rw [z2 hgr]; rfl⟩⟩
      rw [h w'.tried (le_refl _) (by omega)] at hg
      cases hg
    | false =>
      obtain ⟨m2', q1, q2⟩ := hobs.1 hg
      rw [a1] at q1
      simp only [ok.injEq, Prod.mk.injEq, true_and] at q1
      subst q1
      rw [q2]
      simp only [ok_bind]
      refine ⟨fun hrf => by rw [y3 hrf]; rfl, fun hgr => ⟨fun _ => by rw [y2 hgr]; rfl, ?_⟩⟩
      rintro ⟨i, i1, i2, i3⟩
      rw [show i = w'.tried by omega, hg] at i3
      cases i3
  · rw [if_neg hs] at hk
    subst hk
    obtain ⟨m0, z1, z2, z3⟩ := hcons m wd w' h1 h3
    have hidx : Model.stateIndex (m.var n.id).card (some (n.states.map String.ofList)) (String.ofList state) = ok none := by
      rw [stateIndex_eq (by rw [List.length_map, hc]; exact hr.states n hmem), List.find?_eq_none.mpr]
      intro i _ h
      simp only [beq_iff_eq] at h
      obtain ⟨u, hu, he⟩ := List.mem_map.1 (List.mem_of_getElem? h)
      have := String.ofList_injective he
      subst this
      exact hs hu
    have hunk : m.enterObservation n.id (some (n.states.map String.ofList)) (String.ofList state) = ok (0, m) := by
      unfold Model.enterObservation
      rw [hidx]
      rfl
    have hunkIn : m.enterObservationIn fails w' n.id (some (n.states.map String.ofList)) (String.ofList state) = ok ((0, m), w') := by
      unfold Model.enterObservationIn
      rw [hidx]
      rfl
    refine ⟨m0, m0, z1, ?_, ?_⟩
    · unfold insertHard
      rw [hn]
      simp only
      rw [hunk]
      simp only [ok_bind]
      rw [z1]
      rfl
    · unfold insertHardIn
      rw [hn]
      simp only
      rw [hunkIn]
      simp only [ok_bind]
      refine ⟨fun hrf => by rw [z3 hrf]; rfl, fun hgr => ⟨fun _ => by rw [z2 hgr]; rfl, fun h => absurd h (hnone _)⟩⟩

/-! ## examples -/

/-- a series of two steps: variables 1 and 3 are observed; the first value of variable 1 at time 1 is missing -/
def twoWatched : TimeSeries := { numVars := 3, numHidden := 1, hidden := [2], numObserved := 2, observed := [1, 3], length := 2, data := [[1, 0], [-1, 1]] }

theorem twoWatched_wf : twoWatched.WellFormed where
  observed := rfl
  hidden := rfl
  rows := rfl
  row := by decide

/-- After a question (one request), the request of the first of the two values of the first step is refused: only variable 3 is observed, and success is reported. -/
example : ∃ m m', NetFile.runFileIn (fun i => decide (i = 1)) 8 hmm ⟨0, 5⟩ [.query 2] = ok (m, ⟨1, 6⟩) ∧ m.performAll [.observe 3 0] = ok m' ∧
    insertStepIn (fun i => decide (i = 1)) (fun _ => true) twoWatched 0 m ⟨1, 6⟩ = ok ((0, m'), ⟨3, 6⟩) := by
  have ho : ∀ op ∈ ([.query 2] : List (Op ℚ)), op.Valid hmm.net := by
    intro op hop
    rw [List.mem_singleton.mp hop]
    show (2 : Nat) ∈ hmm.vars
    decide
  have hi : InferenceServed (fun i => decide (i = 1)) (bordersOf 8 hmm) 0 ([.query 2] : List (Op ℚ)) := by
    simp only [Model.inferenceServed_cons]
    refine ⟨by simp, ?_⟩
    intro before after he
    cases before <;> cases he
  obtain ⟨m, _, h2⟩ := C113_history 8 hmm_valid hmm_furnished (fun i => decide (i = 1)) ⟨0, 5⟩ ho hi
  obtain ⟨m', h3, h4⟩ := C114_step 8 hmm_valid hmm_furnished (fun i => decide (i = 1)) ⟨0, 5⟩ ho h2 (fun _ => true) twoWatched_wf (by decide) (t := 0) (row := [1, 0]) rfl
  exact ⟨m, m', h2, h3, h4⟩

/-- with unlimited memory both values are entered, at the second step only the one that is present -/
example : ∃ m m0 m1, NetFile.runFile 8 hmm [.query 2] = ok m ∧ m.performAll [.observe 1 1, .observe 3 0] = ok m0 ∧ insertStep (fun _ => true) twoWatched 0 m = ok (0, m0) ∧
    m.performAll [.observe 3 1] = ok m1 ∧ insertStep (fun _ => true) twoWatched 1 m = ok (0, m1) := by
  have ho : ∀ op ∈ ([.query 2] : List (Op ℚ)), op.Valid hmm.net := by
    intro op hop
    rw [List.mem_singleton.mp hop]
    show (2 : Nat) ∈ hmm.vars
    decide
  obtain ⟨m, h1, _⟩ := runFile_spec 8 hmm_valid ho
  obtain ⟨m0, h2, h3⟩ := C114_step_unlimited 8 hmm_valid ho h1 (fun _ => true) twoWatched_wf (by decide) (t := 0) (row := [1, 0]) rfl
  obtain ⟨m1, h4, h5⟩ := C114_step_unlimited 8 hmm_valid ho h1 (fun _ => true) twoWatched_wf (by decide) (t := 1) (row := [-1, 1]) rfl
  exact ⟨m, m0, m1, h1, h2, h3, h4, h5⟩

/-- both values of the first step are lost -/
example : ∃ m w, NetFile.runFileIn (fun _ => true) 8 hmm ⟨0, 5⟩ [.query 2] = ok (m, ⟨1, 5⟩) ∧ insertStepIn (fun _ => true) (fun _ => true) twoWatched 0 m ⟨1, 5⟩ = ok ((0, m), w) := by
  have ho : ∀ op ∈ ([.query 2] : List (Op ℚ)), op.Valid hmm.net := by
    intro op hop
    rw [List.mem_singleton.mp hop]
    show (2 : Nat) ∈ hmm.vars
    decide
  have hi : InferenceServed (fun _ => true) (bordersOf 8 hmm) 0 ([.query 2] : List (Op ℚ)) := by
    simp only [Model.inferenceServed_cons]
    refine ⟨by simp, ?_⟩
    intro before after he
    cases before <;> cases he
  obtain ⟨m, _, h2⟩ := C113_history 8 hmm_valid hmm_furnished (fun _ => true) ⟨0, 5⟩ ho hi
  obtain ⟨w, h3⟩ := C114_step_lost 8 hmm_valid hmm_furnished (fun _ => true) ⟨0, 5⟩ ho h2 (fun _ => true) twoWatched_wf (by decide) (t := 0) (row := [1, 0]) rfl (fun _ _ => rfl)
  exact ⟨m, w, h2, h3⟩

/-- the records of `hmm`: the states of every variable are called "x" and "y" -/
def hmmNodes : List NodeRec := [twoStates 1 "A" "x" "y", twoStates 2 "B" "x" "y", twoStates 3 "C" "x" "y"]

theorem hmmNodes_records : Records hmm hmmNodes where
  ids := rfl
  states := by decide

/-- A named observation whose memory is refused: ENOMEM after inference without it. -/
example : ∃ m m0, NetFile.runFileIn (fun i => decide (i = 0)) 8 hmm ⟨0, 5⟩ [] = ok (m, ⟨0, 5⟩) ∧ m.makeConsistent = ok m0 ∧
    insertHardIn (fun i => decide (i = 0)) hmmNodes "C".toList "y".toList m ⟨0, 5⟩ = ok ((ENOMEM, m0), ⟨5, 5⟩) := by
  have ho : ∀ op ∈ ([] : List (Op ℚ)), op.Valid hmm.net := by simp
  have hi : InferenceServed (fun i => decide (i = 0)) (bordersOf 8 hmm) 0 ([] : List (Op ℚ)) := by
    intro before after he
    cases before <;> cases he
  obtain ⟨m, _, h2⟩ := C113_history 8 hmm_valid hmm_furnished (fun i => decide (i = 0)) ⟨0, 5⟩ ho hi
  obtain ⟨m0, m1, h3, _, _, h5⟩ := C114_named 8 hmm_valid hmm_furnished (fun i => decide (i = 0)) ⟨0, 5⟩ ho h2 hmmNodes_records (varname := "C".toList)
    (n := twoStates 3 "C" "x" "y") (by decide +kernel) (by decide +kernel) "y".toList (k := 1) (b := 1) (by decide +kernel) hmm_borders.symm
  refine ⟨m, m0, h2, h3, (h5 ?_).2 ⟨0, le_refl _, Nat.lt_add_one _, rfl⟩⟩
  intro i h1 _
  have h1' : 0 + 1 ≤ i := h1
  simp only [decide_eq_false_iff_not]
  omega

end Nip.Props
