import Verif.HistoryMemoryLemmas
import Verif.Props.InferMemory

/-!
# C113: histories of calls when memory runs out

`fails i` says that request number `i` for memory is refused.  The counters when the calls begin are arbitrary.  The file is read with unlimited memory.
-/

namespace Nip.Props

open Nip Res Spec

variable {K : Type} [Field K] [LinearOrder K] [IsStrictOrderedRing K]

/-- every variable of the file has a potential -/
def Furnished (f : NetFile K) : Prop := ∀ v ∈ f.vars, ∃ q ∈ f.pots, q.child = v

/-- the number of separators with variables of the tree made from a file -/
def bordersOf (ptr : Nat) (f : NetFile K) : Nat :=
  match NetFile.build ptr f with
  | ok (some m) => borders m
  | _ => 0

theorem build_parts_in (ptr : Nat) {f : NetFile K} (hf : f.Valid) (hall : Furnished f) :
    ∃ m, NetFile.build ptr f = ok (some m) ∧ Model.Holds f.net m (World.fresh f.net) ∧ Model.Settled f.net.vars m ∧
      (m.tree.sepsets.filter (fun s => s.vars ≠ [])).length = bordersOf ptr f ∧
      (∀ ops, NetFile.runFile ptr f ops = m.performAll ops) ∧ ∀ fails w ops, NetFile.runFileIn fails ptr f w ops = m.performAllIn fails w ops := by
  obtain ⟨m, h1, h2, h3⟩ := build_settled ptr hf hall
  refine ⟨m, h1, h2, h3, ?_, fun ops => ?_, fun fails w ops => ?_⟩
  · unfold bordersOf; rw [h1]; rfl
  · unfold NetFile.runFile; rw [h1, ok_bind]
  · unfold NetFile.runFileIn; rw [h1, ok_bind]

/-- **C113**, the model at the end: if every inference gets its memory, it is the one obtained with unlimited memory by the history without the calls that had a request refused.
The number of requests is the same in all runs, and in use are the blocks from before and one for every answer. -/
theorem C113_history (ptr : Nat) {f : NetFile K} (hf : f.Valid) (hall : Furnished f) (fails : Nat → Bool) (w : Loans) {ops : List (Op K)}
    (ho : ∀ op ∈ ops, op.Valid f.net) (hi : InferenceServed fails (bordersOf ptr f) w.tried ops) :
    ∃ m, NetFile.runFile ptr f (servedCalls fails (bordersOf ptr f) w.tried ops) = ok m ∧
      NetFile.runFileIn fails ptr f w ops =
        ok (m, { tried := w.tried + asked (bordersOf ptr f) ops, held := w.held + questionsAsked (servedCalls fails (bordersOf ptr f) w.tried ops) }) := by
  obtain ⟨m, _, h2, h3, h4, h5, h6⟩ := build_parts_in ptr hf hall
  obtain ⟨m', g1, g2, _⟩ := (Model.performAllIn_spec fails ops w h2 h3 h4 ho).1 hi
  exact ⟨m', by rw [h5]; exact g1, by rw [h6]; exact g2⟩

/-- **C113**, undefined behaviour: exactly if some inference has a request refused. -/
theorem C113_undefined (ptr : Nat) {f : NetFile K} (hf : f.Valid) (hall : Furnished f) (fails : Nat → Bool) (w : Loans) {ops : List (Op K)}
    (ho : ∀ op ∈ ops, op.Valid f.net) :
    NetFile.runFileIn fails ptr f w ops = ub ↔ ¬ InferenceServed fails (bordersOf ptr f) w.tried ops := by
  constructor
  · intro h hi
    obtain ⟨m, _, h2⟩ := C113_history ptr hf hall fails w ho hi
    rw [h] at h2
    cases h2
  · intro hi
    obtain ⟨m, _, h2, h3, h4, _, h6⟩ := build_parts_in ptr hf hall
    rw [h6]
    exact (Model.performAllIn_spec fails ops w h2 h3 h4 ho).2 hi

/-- **C113**, an observation of a state: granted the memory it reports no error and does what it does with unlimited memory, giving the memory back; refused it reports ENOMEM and changes
nothing. -/
theorem C113_observation (ptr : Nat) {f : NetFile K} (hf : f.Valid) (hall : Furnished f) (fails : Nat → Bool) (w : Loans) {ops : List (Op K)}
    (ho : ∀ op ∈ ops, op.Valid f.net) {m : Model K} {w' : Loans} (hrun : NetFile.runFileIn fails ptr f w ops = ok (m, w')) {v : Nat} (hv : v ∈ f.vars) {i : Int} (h0 : 0 ≤ i) :
    (fails w'.tried = false → ∃ m', m.enterIndexObservation v i = ok (0, m') ∧
      m.enterIndexObservationIn fails w' v i = ok ((0, m'), { tried := w'.tried + 1, held := w'.held })) ∧
    (fails w'.tried = true → m.enterIndexObservationIn fails w' v i = ok ((ENOMEM, m), { tried := w'.tried + 1, held := w'.held })) := by
  have hi : InferenceServed fails (bordersOf ptr f) w.tried ops := by
    by_contra hc
    rw [(C113_undefined ptr hf hall fails w ho).mpr hc] at hrun
    cases hrun
  obtain ⟨m0, _, h2, h3, h4, _, h6⟩ := build_parts_in ptr hf hall
  obtain ⟨m1, g1, g2, g3⟩ := (Model.performAllIn_spec fails ops w h2 h3 h4 ho).1 hi
  rw [h6, g2] at hrun
  simp only [ok.injEq, Prod.mk.injEq] at hrun
  obtain ⟨rfl, hw⟩ := hrun
  have hlt : ¬ i < 0 := by omega
  refine ⟨fun hg => ?_, fun hr => ?_⟩
  · obtain ⟨m2, k1, _, k3⟩ := Model.performAll_spec _ h2 (fun op hop => ho op (Model.servedCalls_sub _ _ _ _ op hop))
    rw [g1] at k1
    simp only [ok.injEq] at k1
    subst k1
    obtain ⟨m', e1, _⟩ := Model.enterIndexObservation_spec k3 (v := v) hv i
    refine ⟨m', e1, ?_⟩
    unfold Model.enterIndexObservation at e1
    rw [if_neg hlt] at e1
    obtain ⟨e, a1, a2⟩ := bind_ok e1
    unfold Model.enterIndexObservationIn Loans.calloc
    rw [if_neg hlt]
    simp only [hg, Bool.false_eq_true, if_false]
    rw [a1, ok_bind, (Model.enterEvidenceIn_step fails g3 hv e).1, a2]
    rfl
  · unfold Model.enterIndexObservationIn Loans.calloc
    rw [if_neg hlt]
    simp only [hr, if_true]

/-- **C113**, answers: after a history that ends with inference, a question whose memory is granted is answered by the probabilities of the variable given what was told by the calls
whose memory was granted; a question whose memory is refused is answered by NULL and changes nothing. -/
theorem C113_posterior (ptr : Nat) {f : NetFile K} (hf : f.Valid) (hall : Furnished f) (fails : Nat → Bool) (w : Loans) {ops : List (Op K)}
    (ho : ∀ op ∈ ops, op.Valid f.net) {m : Model K} {w' : Loans} (hrun : NetFile.runFileIn fails ptr f w (ops ++ [.propagate]) = ok (m, w'))
    {v : Nat} (hv : v ∈ f.vars) {told : World K} (ht : told = (World.fresh f.net).after f.net (servedCalls fails (bordersOf ptr f) w.tried ops)) :
    (fails w'.tried = false → ∃ r, m.getProbabilityIn fails w' v = ok ((some r, m), { tried := w'.tried + 1, held := w'.held + 1 }) ∧
      r.length = f.card v ∧
      (totalWeight f.net told ≠ 0 → r.sum = 1 ∧ ∀ i, i < f.card v → r[i]? = some (stateWeight f.net told v i / totalWeight f.net told))) ∧
    (fails w'.tried = true → m.getProbabilityIn fails w' v = ok ((none, m), { tried := w'.tried + 1, held := w'.held })) := by
  have ho' : ∀ op ∈ ops ++ [.propagate], op.Valid f.net := by
    intro op hop
    rcases List.mem_append.mp hop with hop | hop
    · exact ho op hop
    · rw [List.mem_singleton.mp hop]; trivial
  have hi : InferenceServed fails (bordersOf ptr f) w.tried (ops ++ [.propagate]) := by
    by_contra hc
    rw [(C113_undefined ptr hf hall fails w ho').mpr hc] at hrun
    cases hrun
  obtain ⟨m0, _, h2, h3, h4, h5, h6⟩ := build_parts_in ptr hf hall
  obtain ⟨m1, g1, g2, g3⟩ := (Model.performAllIn_spec fails _ w h2 h3 h4 ho').1 hi
  rw [h6, g2] at hrun
  simp only [ok.injEq, Prod.mk.injEq] at hrun
  obtain ⟨rfl, _⟩ := hrun
  have hlast : served fails (w.tried + asked (bordersOf ptr f) ops) (requests (bordersOf ptr f) (Op.propagate : Op K)) = true := hi ops [] rfl
  have hcalls : servedCalls fails (bordersOf ptr f) w.tried (ops ++ [.propagate]) = servedCalls fails (bordersOf ptr f) w.tried ops ++ [.propagate] := by
    rw [Model.servedCalls_append]
    congr 1
    rw [servedCalls, hlast]
    rfl
  rw [hcalls] at g1
  have hos : ∀ op ∈ servedCalls fails (bordersOf ptr f) w.tried ops, op.Valid f.net := fun op hop => ho op (Model.servedCalls_sub _ _ _ _ op hop)
  obtain ⟨m2, r, m2', k1, k2, k3, _, k5⟩ := C33_posterior_is_bayes ptr hf hos (asks := []) (by simp) (by simp) hv
  rw [h5, g1] at k1
  simp only [ok.injEq] at k1
  subst k1
  have hm2 : m2' = m1 := Model.getProbability_settled g3 hv k2
  subst hm2
  obtain ⟨r', m3, n, c1, c2, c3⟩ := C112_probability ptr hf (ops := servedCalls fails (bordersOf ptr f) w.tried ops ++ [.propagate]) (by
    intro op hop
    rcases List.mem_append.mp hop with hop | hop
    · exact hos op hop
    · rw [List.mem_singleton.mp hop]; trivial) (by rw [h5]; exact g1) hv
  rw [k2] at c1
  simp only [ok.injEq, Prod.mk.injEq, Option.some.injEq] at c1
  obtain ⟨rfl, rfl⟩ := c1
  rw [if_neg (g3.fam v hv)] at c2
  subst c2
  refine ⟨fun hg => ⟨r, ?_, k3, by rw [ht]; exact k5⟩, fun hr => ?_⟩
  · refine (c3 fails w').1 fun i h1 h2 => ?_
    rw [show i = w'.tried by omega]; exact hg
  · have := (c3 fails w').2 ⟨w'.tried, le_refl _, by omega, hr⟩
    rw [hr, if_pos rfl] at this
    exact this

/-! ## examples -/

theorem hmm_furnished : Furnished hmm := by unfold Furnished; decide +kernel

theorem hmm_borders : bordersOf 8 hmm = 1 := by decide +kernel

/-- two observations, the priors, inference, a question -/
def watched : List (Op ℚ) := [.observe 3 0, .observe 1 1, .priors false, .propagate, .query 2]

theorem watched_valid : ∀ op ∈ watched, op.Valid hmm.net := by
  have h : ∀ v ∈ [1, 2, 3], v ∈ hmm.net.vars := by decide
  simp only [watched, List.mem_cons, List.not_mem_nil, or_false, forall_eq_or_imp, forall_eq]
  exact ⟨h 3 (by decide), h 1 (by decide), trivial, trivial, h 2 (by decide)⟩

/-- The second request, that of the second observation, is refused: the model is as if variable 1 had not been observed, after seven requests one block more is in use. -/
example : ∃ m, NetFile.runFile 8 hmm [.observe 3 0, .priors false, .propagate, .query 2] = ok m ∧
    NetFile.runFileIn (fun i => decide (i = 1)) 8 hmm ⟨0, 5⟩ watched = ok (m, ⟨7, 6⟩) := by
  have hi : InferenceServed (fun i => decide (i = 1)) (bordersOf 8 hmm) 0 watched := by
    rw [hmm_borders]
    unfold watched
    simp only [Model.inferenceServed_cons]
    refine ⟨by simp, by simp, by simp, by decide, by simp, ?_⟩
    intro before after he
    cases before <;> cases he
  obtain ⟨m, h1, h2⟩ := C113_history 8 hmm_valid hmm_furnished (fun i => decide (i = 1)) ⟨0, 5⟩ watched_valid hi
  rw [hmm_borders] at h1 h2
  exact ⟨m, h1, h2⟩

/-- The third request is one of inference: refused, the behaviour is undefined. -/
example : NetFile.runFileIn (fun i => decide (i = 2)) 8 hmm ⟨0, 5⟩ watched = ub := by
  rw [C113_undefined 8 hmm_valid hmm_furnished _ _ watched_valid, hmm_borders]
  intro h
  have := h [.observe 3 0, .observe 1 1, .priors false] [.query 2] rfl
  revert this
  decide

/-- After the same refused observation and inference, the next question is about the world in which only variable 3 was observed, and the next observation is reported as failing
for want of memory if its request is refused. -/
example : ∃ m, NetFile.runFileIn (fun i => decide (i = 1 ∨ i = 6)) 8 hmm ⟨0, 5⟩ ([.observe 3 0, .observe 1 1, .priors false] ++ [.propagate]) = ok (m, ⟨6, 5⟩) ∧
    servedCalls (fun i => decide (i = 1 ∨ i = 6)) (bordersOf 8 hmm) 0 [.observe 3 0, .observe 1 1, .priors false] = ([.observe 3 0, .priors false] : List (Op ℚ)) ∧
    m.enterIndexObservationIn (fun i => decide (i = 1 ∨ i = 6)) ⟨6, 5⟩ 2 0 = ok ((ENOMEM, m), ⟨7, 5⟩) ∧
    m.getProbabilityIn (fun i => decide (i = 1 ∨ i = 6)) ⟨6, 5⟩ 2 = ok ((none, m), ⟨7, 5⟩) := by
  have h : ∀ v ∈ [1, 2, 3], v ∈ hmm.net.vars := by decide
  have hv : ∀ op ∈ ([.observe 3 0, .observe 1 1, .priors false] : List (Op ℚ)), op.Valid hmm.net := by
    simp only [List.mem_cons, List.not_mem_nil, or_false, forall_eq_or_imp, forall_eq]
    exact ⟨h 3 (by decide), h 1 (by decide), trivial⟩
  have hv' : ∀ op ∈ ([.observe 3 0, .observe 1 1, .priors false] ++ [.propagate] : List (Op ℚ)), op.Valid hmm.net := by
    intro op hop
    rcases List.mem_append.mp hop with hop | hop
    · exact hv op hop
    · rw [List.mem_singleton.mp hop]; trivial
  have hi : InferenceServed (fun i => decide (i = 1 ∨ i = 6)) (bordersOf 8 hmm) 0 ([.observe 3 0, .observe 1 1, .priors false] ++ [.propagate] : List (Op ℚ)) := by
    rw [hmm_borders]
    simp only [List.cons_append, List.nil_append, Model.inferenceServed_cons]
    refine ⟨by simp, by simp, by simp, by decide, ?_⟩
    intro before after he
    cases before <;> cases he
  obtain ⟨m, _, h2⟩ := C113_history 8 hmm_valid hmm_furnished (fun i => decide (i = 1 ∨ i = 6)) ⟨0, 5⟩ hv' hi
  have h3 := (C113_observation 8 hmm_valid hmm_furnished _ ⟨0, 5⟩ hv' h2 (v := 2) (h 2 (by decide)) (i := 0) (le_refl _)).2
  have h4 := (C113_posterior 8 hmm_valid hmm_furnished _ ⟨0, 5⟩ hv h2 (v := 2) (h 2 (by decide)) rfl).2
  rw [hmm_borders] at h2 h3 h4 ⊢
  exact ⟨m, h2, rfl, h3 rfl, h4 rfl⟩

/-- like `unlinked`, but variable 2 has no potential -/
def unfurnished : NetFile ℚ where
  vars := [1, 2]
  card := fun _ => 2
  next := fun v => if v = 2 then some 1 else none
  pots := [{ child := 1, parents := [], table := { card := [2], data := [1 / 4, 3 / 4] } }]

/-- **C113**, the condition on the file is needed: if a variable has no potential, forgetting everything asks for memory, and when it is refused reads through a null pointer. -/
theorem C113_unfurnished : NetFile.runFileIn (fun _ => true) 8 unfurnished ⟨0, 0⟩ [.reset] = ub ∧
    (∃ m, NetFile.runFileIn (fun _ => false) 8 unfurnished ⟨0, 0⟩ [.reset] = ok (m, ⟨1, 0⟩)) := by
  constructor
  · have h : (match NetFile.runFileIn (fun _ => true) 8 unfurnished ⟨0, 0⟩ [.reset] with | ok _ => false | ub => true) = true := by decide +kernel
    cases e : NetFile.runFileIn (fun _ => true) 8 unfurnished ⟨0, 0⟩ [.reset] with
    | ub => rfl
    | ok r => rw [e] at h; cases h
  · have h : (match NetFile.runFileIn (fun _ => false) 8 unfurnished ⟨0, 0⟩ [.reset] with | ok r => decide (r.2 = ⟨1, 0⟩) | ub => false) = true := by decide +kernel
    cases e : NetFile.runFileIn (fun _ => false) 8 unfurnished ⟨0, 0⟩ [.reset] with
    | ub => rw [e] at h; cases h
    | ok r =>
      rw [e] at h
      simp only [decide_eq_true_eq] at h
      exact ⟨r.1, by rw [← h]⟩

end Nip.Props
