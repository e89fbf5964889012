import Verif.HistoryMemory
import Verif.InferMemoryLemmas
import Verif.Spec.HistoryMemory

/-! # Lemmas about histories of calls when memory runs out -/

namespace Nip

open Res Spec

set_option linter.unusedSectionVars false

namespace Model

variable {K : Type} [Field K] [LinearOrder K] [IsStrictOrderedRing K]

/-- the variables are `S`, and the clique of the family of each of them is known -/
structure Settled (S : List Nat) (m : Model K) : Prop where
  vars : m.varList = S
  roots : ∀ v ∈ m.independent, v ∈ S
  fam : ∀ v ∈ S, (m.var v).familyClique ≠ none

theorem Settled.tree {S : List Nat} {m : Model K} (h : Settled S m) (t : JTree K) : Settled S { m with tree := t } := ⟨h.vars, h.roots, h.fam⟩

theorem Settled.set {S : List Nat} {m : Model K} (h : Settled S m) {v : Nat} {r : VarRec K} (hr : r.familyClique = (m.var v).familyClique) :
    Settled S (m.setVar v r) := by
  refine ⟨h.vars, h.roots, fun u hu => ?_⟩
  unfold setVar
  simp only
  by_cases e : u = v
  · subst e; rw [Function.update_self, hr]; exact h.fam u hu
  · rw [Function.update_of_ne e]; exact h.fam u hu

/-- the run with the oracle is the run without, makes no request, and keeps the families known -/
def InStep (S : List Nat) (r : Res (Model K)) (ri : Loans → Res (Model K × Loans)) : Prop :=
  (∀ w, ri w = (r >>= fun m' => ok (m', w))) ∧ ∀ m', r = ok m' → Settled S m'

theorem findFamilyIn_known (fails : Nat → Bool) {S : List Nat} {m : Model K} (h : Settled S m) {v : Nat} (hv : v ∈ S) :
    ∃ c, m.findFamily v = ok (some c, m) ∧ ∀ w, m.findFamilyIn fails w v = ok ((some c, m), w) := by
  cases e : (m.var v).familyClique with
  | none => exact absurd e (h.fam v hv)
  | some c =>
    refine ⟨c, ?_, fun w => ?_⟩
    · unfold findFamily; rw [e]
    · unfold findFamilyIn; rw [e]

theorem multiplyEvidence_settled {S : List Nat} {m m' : Model K} (h : Settled S m) {c v : Nat} {a : List K} {b : Option (List K)}
    (hm : m.multiplyEvidence c v a b = ok m') : Settled S m' := by
  unfold multiplyEvidence at hm
  obtain ⟨i, _, hm⟩ := bind_ok hm
  cases i with
  | none => cases hm
  | some i =>
    simp only at hm
    obtain ⟨cl, _, hm⟩ := bind_ok hm
    obtain ⟨p, _, hm⟩ := bind_ok hm
    obtain ⟨cs, _, hm⟩ := bind_ok hm
    simp only [ok.injEq] at hm
    subst hm
    exact h.tree _

theorem fold_inStep {S : List Nat} (g : Model K → Nat → Res (Model K)) (gi : Model K × Loans → Nat → Res (Model K × Loans)) :
    ∀ (l : List Nat), (∀ v ∈ l, ∀ m, Settled S m → InStep S (g m v) (fun w => gi (m, w) v)) → ∀ m, Settled S m →
      InStep S (l.foldlM g m) (fun w => l.foldlM gi (m, w)) := by
  intro l
  induction l with
  | nil =>
    intro _ m h
    refine ⟨fun w => rfl, fun m' hm => ?_⟩
    have : (ok m : Res (Model K)) = ok m' := hm
    simp only [ok.injEq] at this
    subst this
    exact h
  | cons v l ih =>
    intro hg m h
    obtain ⟨h1, h2⟩ := hg v (List.mem_cons_self ..) m h
    cases e : g m v with
    | ub =>
      refine ⟨fun w => ?_, fun m' hm => ?_⟩
      · have := h1 w
        simp only at this
        rw [e, ub_bind] at this
        show (v :: l).foldlM gi (m, w) = _
        rw [List.foldlM_cons, List.foldlM_cons, this, e, ub_bind, ub_bind, ub_bind]
      · rw [List.foldlM_cons, e, ub_bind] at hm; cases hm
    | ok m1 =>
      obtain ⟨k1, k2⟩ := ih (fun u hu => hg u (List.mem_cons_of_mem _ hu)) m1 (h2 m1 e)
      refine ⟨fun w => ?_, fun m' hm => ?_⟩
      · have := h1 w
        simp only at this
        rw [e, ok_bind] at this
        show (v :: l).foldlM gi (m, w) = _
        rw [List.foldlM_cons, List.foldlM_cons, this, e, ok_bind, ok_bind]
        exact k1 w
      · rw [List.foldlM_cons, e, ok_bind] at hm
        exact k2 m' hm

theorem globalRetractionIn_step (fails : Nat → Bool) {S : List Nat} {m : Model K} (h : Settled S m) :
    InStep S m.globalRetraction (fun w => m.globalRetractionIn fails w) := by
  unfold globalRetraction globalRetractionIn
  cases m.tree.unmarkAll with
  | ub => exact ⟨fun w => rfl, fun m' hm => by cases hm⟩
  | ok t =>
    simp only [ok_bind]
    cases JTree.dfs JTree.retractClique JTree.retractSepset (t.cliques.length + 1) (t, 0) 0 with
    | ub => exact ⟨fun w => rfl, fun m' hm => by cases hm⟩
    | ok p =>
      obtain ⟨x, st⟩ := p
      simp only [ok_bind]
      refine fold_inStep _ _ _ ?_ _ (h.tree _)
      intro v hv m1 h1
      have hv' : v ∈ S := by rw [← h.vars]; exact hv
      obtain ⟨c, f1, f2⟩ := findFamilyIn_known fails h1 hv'
      unfold retractVarIn
      simp only [f1, f2, ok_bind]
      exact ⟨fun w => rfl, fun m' hm => multiplyEvidence_settled h1 hm⟩

theorem updateLikelihood_settled {S : List Nat} {m m' : Model K} (h : Settled S m) {v : Nat} {l : List K} (hm : m.updateLikelihood v l = ok m') :
    Settled S m' := by
  unfold updateLikelihood at hm
  obtain ⟨a, _, hm⟩ := bind_ok hm
  simp only [ok.injEq] at hm
  subst hm
  exact h.set rfl

theorem resetLikelihood_settled {S : List Nat} {m m' : Model K} (h : Settled S m) {v : Nat} (hm : m.resetLikelihood v = ok m') : Settled S m' := by
  unfold resetLikelihood at hm
  obtain ⟨a, _, hm⟩ := bind_ok hm
  simp only [ok.injEq] at hm
  subst hm
  exact h.set rfl

theorem enterEvidenceIn_step (fails : Nat → Bool) {S : List Nat} {m : Model K} (h : Settled S m) {v : Nat} (hv : v ∈ S) (e : List K) :
    (∀ w, m.enterEvidenceIn fails w v e = (m.enterEvidence v e >>= fun r => ok (r, w))) ∧ ∀ r, m.enterEvidence v e = ok r → Settled S r.2 := by
  obtain ⟨c, f1, f2⟩ := findFamilyIn_known fails h hv
  unfold enterEvidenceIn enterEvidence
  simp only [f1, f2, ok_bind]
  cases loop (m.var v).card (fun i (r : Bool) => do
      let l ← rd (m.var v).likelihood i
      let e ← rd e i
      ok (if l = 0 ∧ e ≠ 0 then true else r)) false with
  | ub => exact ⟨fun w => rfl, fun m' hm => by cases hm⟩
  | ok b =>
    simp only [ok_bind]
    cases h1 : (if !b then m.multiplyEvidence c v e (some (m.var v).likelihood) else ok m) with
    | ub => exact ⟨fun w => rfl, fun m' hm => by cases hm⟩
    | ok m1 =>
      have s1 : Settled S m1 := by
        cases b with
        | true =>
          simp only [Bool.not_true, Bool.false_eq_true, if_false, ok.injEq] at h1
          subst h1; exact h
        | false => exact multiplyEvidence_settled h h1
      simp only [ok_bind]
      cases h2 : m1.updateLikelihood v e with
      | ub => exact ⟨fun w => rfl, fun m' hm => by cases hm⟩
      | ok m2 =>
        have s2 := updateLikelihood_settled s1 h2
        simp only [ok_bind]
        cases b with
        | false =>
          refine ⟨fun w => rfl, fun r hr => ?_⟩
          have : (ok (0, m2) : Res (Nat × Model K)) = ok r := hr
          simp only [ok.injEq] at this
          subst this
          exact s2
        | true =>
          simp only [if_true]
          obtain ⟨g1, g2⟩ := globalRetractionIn_step fails s2
          cases h3 : m2.globalRetraction with
          | ub =>
            refine ⟨fun w => ?_, fun r hr => by cases hr⟩
            have := g1 w
            simp only at this
            rw [this, h3]
            rfl
          | ok m3 =>
            refine ⟨fun w => ?_, fun r hr => ?_⟩
            · have := g1 w
              simp only at this
              rw [this, h3]
              rfl
            · have : (ok (0, m3) : Res (Nat × Model K)) = ok r := hr
              simp only [ok.injEq] at this
              subst this
              exact g2 m3 h3

theorem enterPriorIn_step (fails : Nat → Bool) {S : List Nat} {m : Model K} (h : Settled S m) {v : Nat} (hv : v ∈ S) (e : List K) :
    (∀ w, m.enterPriorIn fails w v e = (m.enterPrior v e >>= fun r => ok (r, w))) ∧ ∀ r, m.enterPrior v e = ok r → Settled S r.2 := by
  obtain ⟨c, f1, f2⟩ := findFamilyIn_known fails h hv
  unfold enterPriorIn enterPrior
  simp only [f1, f2, ok_bind]
  cases loop (m.var v).card (fun i (b : Bool) => do
      let x ← rd e i
      ok (if x > 0 then false else b)) true with
  | ub => exact ⟨fun w => rfl, fun m' hm => by cases hm⟩
  | ok b =>
    simp only [ok_bind]
    cases b with
    | true =>
      refine ⟨fun w => rfl, fun r hr => ?_⟩
      have : (ok (EINVAL, m) : Res (Nat × Model K)) = ok r := hr
      simp only [ok.injEq] at this
      subst this
      exact h
    | false =>
      simp only [Bool.false_eq_true, if_false]
      cases h1 : m.multiplyEvidence c v e none with
      | ub => exact ⟨fun w => rfl, fun m' hm => by cases hm⟩
      | ok m1 =>
        refine ⟨fun w => rfl, fun r hr => ?_⟩
        have : (ok (0, m1) : Res (Nat × Model K)) = ok r := hr
        simp only [ok.injEq] at this
        subst this
        exact multiplyEvidence_settled h h1

theorem resetIn_step (fails : Nat → Bool) {S : List Nat} {m : Model K} (h : Settled S m) : InStep S m.reset (fun w => m.resetIn fails w) := by
  unfold reset resetIn
  obtain ⟨k1, k2⟩ := fold_inStep (S := S) (fun (m : Model K) v => do
    let m ← m.resetLikelihood v
    ok (m.setVar v { m.var v with priorEntered := false })) (fun st v => do
    let m ← st.1.resetLikelihood v
    ok (m.setVar v { m.var v with priorEntered := false }, st.2)) m.varList (by
      intro v _ m1 h1
      cases e : m1.resetLikelihood v with
      | ub => exact ⟨fun w => (by simp only [e]; rfl), fun m' hm => by cases hm⟩
      | ok m2 =>
        refine ⟨fun w => (by simp only [e]; rfl), fun m' hm => ?_⟩
        have : (ok (m2.setVar v { m2.var v with priorEntered := false }) : Res (Model K)) = ok m' := hm
        simp only [ok.injEq] at this
        subst this
        exact (resetLikelihood_settled h1 e).set rfl) m h
  cases e : m.varList.foldlM (fun (m : Model K) v => do
    let m ← m.resetLikelihood v
    ok (m.setVar v { m.var v with priorEntered := false })) m with
  | ub => exact ⟨fun w => rfl, fun m' hm => by cases hm⟩
  | ok m1 => exact globalRetractionIn_step fails (k2 m1 e)

theorem usePriorsIn_step (fails : Nat → Bool) {S : List Nat} {m : Model K} (h : Settled S m) (hist : Bool) :
    InStep S (m.usePriors hist) (fun w => m.usePriorsIn fails w hist) := by
  unfold usePriors usePriorsIn
  refine fold_inStep _ _ _ ?_ m h
  intro v hv m1 h1
  have hv' := h.roots v hv
  have hself : InStep S (ok m1) (fun w => ok (m1, w)) := by
    refine ⟨fun w => rfl, fun m' hm => ?_⟩
    simp only [ok.injEq] at hm
    subst hm; exact h1
  unfold usePrior usePriorIn
  simp only
  cases (m1.var v).prior with
  | none => exact ⟨fun w => rfl, fun m' hm => by cases hm⟩
  | some prior =>
    simp only
    by_cases e1 : (!(m1.var v).priorEntered) = true
    · rw [if_pos e1]
      simp only [if_pos e1]
      by_cases e2 : (!hist || !(m1.var v).oldOutgoing) = true
      · rw [if_pos e2]
        simp only [if_pos e2]
        obtain ⟨g1, g2⟩ := enterPriorIn_step fails h1 hv' prior
        cases e3 : m1.enterPrior v prior with
        | ub =>
          refine ⟨fun w => ?_, fun m' hm => by cases hm⟩
          simp only
          rw [g1 w, e3]; rfl
        | ok r =>
          refine ⟨fun w => ?_, fun m' hm => ?_⟩
          · simp only
            rw [g1 w, e3]; rfl
          · have : (ok (r.2.setVar v { r.2.var v with priorEntered := true }) : Res (Model K)) = ok m' := hm
            simp only [ok.injEq] at this
            subst this
            exact (g2 r e3).set rfl
      · rw [if_neg e2]
        simp only [if_neg e2]
        exact hself
    · rw [if_neg e1]
      simp only [if_neg e1]
      exact hself

theorem seps_same {m m' : Model K} (h : Same m m') :
    (m'.tree.sepsets.filter (fun s => s.vars ≠ [])).length = (m.tree.sepsets.filter (fun s => s.vars ≠ [])).length := by
  have key : ∀ t : JTree K, (t.sepsets.filter (fun s => s.vars ≠ [])).length = (t.skel.2.filter (fun p => p.1 ≠ [])).length := by
    intro t
    unfold JTree.skel
    simp only
    rw [List.filter_map, List.length_map]
    rfl
  rw [key, key, h.skel]

theorem served_iff {fails : Nat → Bool} {t n : Nat} : served fails t n = true ↔ Granted fails t (t + n) := by
  unfold served Granted
  rw [List.all_eq_true]
  constructor
  · intro h i h1 h2
    have := h (i - t) (List.mem_range.mpr (by omega))
    rw [show t + (i - t) = i by omega] at this
    simpa using this
  · intro h i hi
    have := h (t + i) (by omega) (by have := List.mem_range.mp hi; omega)
    simp [this]

theorem not_served_iff {fails : Nat → Bool} {t n : Nat} : served fails t n = false ↔ Refused fails t (t + n) := by
  rw [← Bool.not_eq_true, served_iff]
  unfold Granted Refused
  push Not
  simp

theorem served_zero (fails : Nat → Bool) (t : Nat) : served fails t 0 = true := rfl

theorem served_one (fails : Nat → Bool) (t : Nat) : served fails t 1 = !fails t := by
  unfold served
  simp [List.range_succ]

theorem makeConsistent_settled {S : List Nat} {m m' : Model K} (h : Settled S m) (hm : m.makeConsistent = ok m') : Settled S m' := by
  unfold makeConsistent at hm
  obtain ⟨t, _, hm⟩ := bind_ok hm
  obtain ⟨⟨e, t1⟩, _, hm⟩ := bind_ok hm
  simp only at hm
  split at hm
  · simp only [ok.injEq] at hm
    subst hm
    exact h.tree _
  · obtain ⟨t2, _, hm⟩ := bind_ok hm
    obtain ⟨⟨e3, t3⟩, _, hm⟩ := bind_ok hm
    simp only [ok.injEq] at hm
    subst hm
    exact h.tree _

theorem probMass_settled {S : List Nat} {m : Model K} (h : Settled S m) {r : K × Model K} (hm : m.probMass = ok r) : Settled S r.2 := by
  unfold probMass at hm
  obtain ⟨⟨k, t⟩, _, hm⟩ := bind_ok hm
  simp only [ok.injEq] at hm
  subst hm
  exact h.tree _

theorem getProbability_settled {S : List Nat} {m : Model K} (h : Settled S m) {v : Nat} (hv : v ∈ S) {r : Option (List K) × Model K}
    (hm : m.getProbability v = ok r) : r.2 = m := by
  obtain ⟨c, f1, _⟩ := findFamilyIn_known (fun _ => false) h hv
  unfold getProbability at hm
  rw [f1, ok_bind] at hm
  simp only at hm
  obtain ⟨a, _, hm⟩ := bind_ok hm
  obtain ⟨b, _, hm⟩ := bind_ok hm
  simp only [ok.injEq] at hm
  subst hm
  rfl

/-- one call -/
theorem performIn_spec (fails : Nat → Bool) (w : Loans) {net : Net K} {m : Model K} {wd : World K} (h : Holds net m wd) (hs : Settled net.vars m)
    {b : Nat} (hb : (m.tree.sepsets.filter (fun s => s.vars ≠ [])).length = b) {op : Op K} (ho : op.Valid net) :
    ∃ m', m.perform op = ok m' ∧ Settled net.vars m' ∧
      (served fails w.tried (requests b op) = true →
        performIn fails (m, w) op = ok (m', ⟨w.tried + requests b op, w.held + questionsAsked [op]⟩)) ∧
      (served fails w.tried (requests b op) = false →
        (op = .propagate → performIn fails (m, w) op = ub) ∧
        (op ≠ .propagate → performIn fails (m, w) op = ok (m, ⟨w.tried + requests b op, w.held⟩))) := by
  obtain ⟨m', hp, _, _⟩ := perform_spec h ho
  refine ⟨m', hp, ?_⟩
  cases op with
  | evidence v e =>
    obtain ⟨g1, g2⟩ := enterEvidenceIn_step fails hs ho.1 e
    unfold perform at hp
    simp only at hp
    obtain ⟨r, h1, hp⟩ := bind_ok hp
    simp only [ok.injEq] at hp
    subst hp
    refine ⟨g2 r h1, fun _ => ?_, fun hc => absurd hc (by simp [requests, served_zero])⟩
    unfold performIn
    simp only
    rw [g1, h1]
    rfl
  | observe v i =>
    unfold perform at hp
    simp only at hp
    obtain ⟨r, h1, hp⟩ := bind_ok hp
    simp only [ok.injEq] at hp
    subst hp
    unfold enterIndexObservation at h1
    unfold performIn enterIndexObservationIn requests
    simp only
    by_cases hi : i < 0
    · rw [if_pos hi] at h1 ⊢
      simp only [ok.injEq] at h1
      subst h1
      refine ⟨hs, fun _ => ?_, fun hc => absurd hc (by simp [served_zero])⟩
      rw [if_pos hi]
      rfl
    · rw [if_neg hi] at h1 ⊢
      rw [if_neg hi]
      obtain ⟨e, h2, h1⟩ := bind_ok h1
      obtain ⟨g1, g2⟩ := enterEvidenceIn_step fails hs ho e
      refine ⟨g2 r h1, fun hc => ?_, fun hc => ⟨fun hcon => (by cases hcon), fun _ => ?_⟩⟩
      · rw [served_one, Bool.not_eq_true'] at hc
        unfold Loans.calloc
        simp only [hc, Bool.false_eq_true, if_false]
        rw [h2, ok_bind, g1, h1]
        rfl
      · rw [served_one, Bool.not_eq_false'] at hc
        unfold Loans.calloc
        simp only [hc, if_true]
        rfl
  | reset =>
    obtain ⟨g1, g2⟩ := resetIn_step fails hs
    have hp' : m.reset = ok m' := hp
    refine ⟨g2 m' hp', fun _ => ?_, fun hc => absurd hc (by simp [requests, served_zero])⟩
    have := g1 w
    simp only [hp', ok_bind] at this
    exact this
  | priors hist =>
    obtain ⟨g1, g2⟩ := usePriorsIn_step fails hs hist
    have hp' : m.usePriors hist = ok m' := hp
    refine ⟨g2 m' hp', fun _ => ?_, fun hc => absurd hc (by simp [requests, served_zero])⟩
    have := g1 w
    simp only [hp', ok_bind] at this
    exact this
  | propagate =>
    have hp' : m.makeConsistent = ok m' := hp
    obtain ⟨m'', n, hn, g2, g3⟩ := makeConsistentIn_spec fails w h
    rw [hp'] at g2
    simp only [ok.injEq] at g2
    subst g2
    rw [hb] at hn
    subst hn
    refine ⟨makeConsistent_settled hs hp', fun hc => ?_, fun hc => ⟨fun _ => ?_, fun hcon => absurd rfl hcon⟩⟩
    · rcases g3 with ⟨g3, _⟩ | ⟨_, g4⟩
      · exact g3
      · exact absurd (not_served_iff.mpr g4) (by rw [show 4 * b = requests b (Op.propagate : Op K) from rfl, hc]; simp)
    · rcases g3 with ⟨_, g4⟩ | ⟨g3, _⟩
      · exact absurd (served_iff.mpr g4) (by rw [show 4 * b = requests b (Op.propagate : Op K) from rfl, hc]; simp)
      · exact g3
  | mass =>
    unfold perform at hp
    simp only at hp
    obtain ⟨r, h1, hp⟩ := bind_ok hp
    simp only [ok.injEq] at hp
    subst hp
    refine ⟨probMass_settled hs h1, fun _ => ?_, fun hc => absurd hc (by simp [requests, served_zero])⟩
    unfold performIn
    simp only
    rw [h1]
    rfl
  | query v =>
    have hv : v ∈ net.vars := ho
    unfold perform at hp
    simp only at hp
    obtain ⟨r, h1, hp⟩ := bind_ok hp
    simp only [ok.injEq] at hp
    subst hp
    obtain ⟨r', m'', n, hn, g2, g3⟩ := getProbabilityIn_spec fails w h hv
    rw [if_neg (hs.fam v hv)] at hn
    subst hn
    rw [h1] at g2
    simp only [ok.injEq] at g2
    have hr := getProbability_settled hs hv h1
    subst g2
    simp only at hr ⊢
    subst hr
    refine ⟨hs, fun hc => ?_, fun hc => ⟨fun hcon => (by cases hcon), fun _ => ?_⟩⟩
    · rcases g3 with ⟨g3, _⟩ | ⟨_, g4⟩
      · unfold performIn
        simp only
        rw [g3]
        rfl
      · exact absurd (not_served_iff.mpr g4) (by rw [show 1 = requests b (Op.query v : Op K) from rfl, hc]; simp)
    · rcases g3 with ⟨_, g4⟩ | ⟨g3, _⟩
      · exact absurd (served_iff.mpr g4) (by rw [show 1 = requests b (Op.query v : Op K) from rfl, hc]; simp)
      · have hc' : fails w.tried = true := by
          have : served fails w.tried 1 = false := hc
          rw [served_one, Bool.not_eq_false'] at this
          exact this
        rw [hc', if_pos rfl] at g3
        unfold performIn
        simp only
        rw [g3]
        rfl

theorem inferenceServed_cons {fails : Nat → Bool} {b t : Nat} {op : Op K} {ops : List (Op K)} :
    InferenceServed fails b t (op :: ops) ↔ (op = .propagate → served fails t (requests b op) = true) ∧ InferenceServed fails b (t + requests b op) ops := by
  constructor
  · intro h
    refine ⟨?_, ?_⟩
    · rintro rfl
      have := h [] ops rfl
      simpa [asked, requests] using this
    · intro before after he
      have := h (op :: before) after (by rw [he]; rfl)
      unfold asked at this ⊢
      rw [List.map_cons, List.sum_cons] at this
      rw [Nat.add_assoc]
      exact this
  · rintro ⟨h1, h2⟩ before after he
    cases before with
    | nil =>
      simp only [List.nil_append, List.cons.injEq] at he
      have := h1 he.1
      rw [he.1] at this
      simpa [asked, requests] using this
    | cons o before =>
      simp only [List.cons_append, List.cons.injEq] at he
      have := h2 before after he.2
      unfold asked at this ⊢
      rw [List.map_cons, List.sum_cons, ← he.1, ← Nat.add_assoc]
      exact this

theorem questionsAsked_cons (op : Op K) (ops : List (Op K)) : questionsAsked (op :: ops) = questionsAsked [op] + questionsAsked ops := by
  cases op <;> simp [questionsAsked, Nat.add_comm]

theorem servedCalls_append (fails : Nat → Bool) (b : Nat) (later : List (Op K)) : ∀ (ops : List (Op K)) (t : Nat),
    servedCalls fails b t (ops ++ later) = servedCalls fails b t ops ++ servedCalls fails b (t + asked b ops) later := by
  intro ops
  induction ops with
  | nil => intro t; rfl
  | cons op ops ih =>
    intro t
    rw [List.cons_append, servedCalls, servedCalls, ih, List.append_assoc]
    congr 3
    unfold asked
    rw [List.map_cons, List.sum_cons, Nat.add_assoc]

theorem servedCalls_sub (fails : Nat → Bool) (b : Nat) : ∀ (ops : List (Op K)) (t : Nat), ∀ op ∈ servedCalls fails b t ops, op ∈ ops := by
  intro ops
  induction ops with
  | nil => intro t op h; exact h
  | cons o ops ih =>
    intro t op h
    rw [servedCalls] at h
    rcases List.mem_append.mp h with h | h
    · split at h
      · rw [List.mem_singleton.mp h]; exact List.mem_cons_self ..
      · cases h
    · exact List.mem_cons_of_mem _ (ih _ op h)

/-- histories -/
theorem performAllIn_spec (fails : Nat → Bool) {net : Net K} {b : Nat} : ∀ (ops : List (Op K)) (w : Loans) {m : Model K} {wd : World K}, Holds net m wd →
    Settled net.vars m → (m.tree.sepsets.filter (fun s => s.vars ≠ [])).length = b → (∀ op ∈ ops, op.Valid net) →
    (InferenceServed fails b w.tried ops → ∃ m', m.performAll (servedCalls fails b w.tried ops) = ok m' ∧
      performAllIn fails m w ops = ok (m', ⟨w.tried + asked b ops, w.held + questionsAsked (servedCalls fails b w.tried ops)⟩) ∧
      Settled net.vars m') ∧
    (¬ InferenceServed fails b w.tried ops → performAllIn fails m w ops = ub) := by
  intro ops
  induction ops with
  | nil =>
    intro w m wd _ hs _ _
    refine ⟨fun _ => ⟨m, rfl, rfl, hs⟩, fun h => absurd ?_ h⟩
    intro before after he
    cases before <;> cases he
  | cons op ops ih =>
    intro w m wd h hs hb ho
    have hv := ho op (List.mem_cons_self ..)
    have hv' : ∀ o ∈ ops, o.Valid net := fun o h => ho o (List.mem_cons_of_mem _ h)
    obtain ⟨m1, a1, a2, a3, a4⟩ := performIn_spec fails w h hs hb hv
    obtain ⟨m1', b1, b2, b3⟩ := perform_spec h hv
    rw [a1] at b1
    simp only [ok.injEq] at b1
    subst b1
    rw [inferenceServed_cons]
    have hasked : asked b (op :: ops) = requests b op + asked b ops := rfl
    cases hc : served fails w.tried (requests b op) with
    | true =>
      obtain ⟨k1, k2⟩ := ih ⟨w.tried + requests b op, w.held + questionsAsked [op]⟩ b3 a2 ((seps_same b2.1).trans hb) hv'
      have hcalls : servedCalls fails b w.tried (op :: ops) = op :: servedCalls fails b (w.tried + requests b op) ops := by
        rw [servedCalls, hc]; rfl
      rw [hcalls, hasked]
      have hrun : performAllIn fails m w (op :: ops) = performAllIn fails m1 ⟨w.tried + requests b op, w.held + questionsAsked [op]⟩ ops := by
        unfold performAllIn
        rw [List.foldlM_cons, a3 hc, ok_bind]
      rw [hrun]
      refine ⟨fun hi => ?_, fun hi => ?_⟩
      · obtain ⟨m', c1, c2, c3⟩ := k1 hi.2
        refine ⟨m', ?_, ?_, c3⟩
        · unfold performAll at c1 ⊢
          rw [List.foldlM_cons, a1, ok_bind]
          exact c1
        · rw [c2, questionsAsked_cons op (servedCalls fails b (w.tried + requests b op) ops)]
          simp only [Nat.add_assoc]
      · exact k2 (fun hi' => hi ⟨fun _ => rfl, hi'⟩)
    | false =>
      by_cases hop : op = .propagate
      · refine ⟨fun hi => absurd (hi.1 hop) (by simp), fun _ => ?_⟩
        unfold performAllIn
        rw [List.foldlM_cons, (a4 hc).1 hop, ub_bind]
      · obtain ⟨k1, k2⟩ := ih ⟨w.tried + requests b op, w.held⟩ h hs hb hv'
        have hcalls : servedCalls fails b w.tried (op :: ops) = servedCalls fails b (w.tried + requests b op) ops := by
          rw [servedCalls, hc]; rfl
        rw [hcalls, hasked]
        have hrun : performAllIn fails m w (op :: ops) = performAllIn fails m ⟨w.tried + requests b op, w.held⟩ ops := by
          unfold performAllIn
          rw [List.foldlM_cons, (a4 hc).2 hop, ok_bind]
        rw [hrun]
        refine ⟨fun hi => ?_, fun hi => ?_⟩
        · obtain ⟨m', c1, c2, c3⟩ := k1 hi.2
          exact ⟨m', c1, by rw [c2]; simp only [Nat.add_assoc], c3⟩
        · exact k2 (fun hi' => hi ⟨fun e => absurd e hop, hi'⟩)

end Model

/-- reading a file in which every variable has a potential finds all families -/
theorem build_settled {K : Type} [Field K] [LinearOrder K] [IsStrictOrderedRing K] (ptr : Nat) {f : NetFile K} (hf : f.Valid)
    (hall : ∀ v ∈ f.vars, ∃ q ∈ f.pots, q.child = v) :
    ∃ m, NetFile.build ptr f = ok (some m) ∧ Model.Holds f.net m (World.fresh f.net) ∧ Model.Settled f.net.vars m := by
  obtain ⟨m, h1, h2, h3, _⟩ := build_entire ptr hf
  refine ⟨m, h1, h2, h2.sound.vars, ?_, ?_⟩
  · intro v hv
    rw [h2.sound.roots] at hv
    exact h2.sound.rsub v hv
  · intro v hv
    obtain ⟨q, hq, rfl⟩ := hall v hv
    obtain ⟨c, hc⟩ := h3 q hq
    rw [hc]
    simp

end Nip
