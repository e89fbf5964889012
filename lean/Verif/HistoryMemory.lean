import Verif.InferMemory
import Verif.History

/-!
# Model of histories of calls when memory runs out

`nip_global_retraction`, `nip_enter_evidence`, `nip_enter_index_observation`, `nip_enter_prior`, `reset_model` and `use_priors` with the oracle and the
counters of `InferMemory.lean`.  What is written to the tables is as in `JoinTree.lean`.  Error messages are left out.
-/

namespace Nip

open Res Spec

variable {K : Type} [Zero K] [One K] [Add K] [_root_.Sub K] [Mul K] [Div K] [LinearOrder K]

namespace Model

/-- One round of the second loop of `nip_global_retraction`, `src/nipjointree.c:775-784`.  The clique is not checked: reading through a null pointer. -/
def retractVarIn (fails : Nat → Bool) (st : Model K × Loans) (v : Nat) : Res (Model K × Loans) := do
  let ((c, m), w) ← st.1.findFamilyIn fails st.2 v
  match c with
  | none => ub
  | some c => do
    let m ← m.multiplyEvidence c v (m.var v).likelihood none
    ok (m, w)

/-- `nip_global_retraction`, `src/nipjointree.c:760-786`. -/
def globalRetractionIn (fails : Nat → Bool) (m : Model K) (w : Loans) : Res (Model K × Loans) := do
  let t ← m.tree.unmarkAll
  let (_, st) ← JTree.dfs JTree.retractClique JTree.retractSepset (t.cliques.length + 1) (t, 0) 0
  m.varList.foldlM (retractVarIn fails) ({ m with tree := st.1 }, w)

/-- `nip_enter_evidence`, `src/nipjointree.c:828-870` (non-null arguments). -/
def enterEvidenceIn (fails : Nat → Bool) (m : Model K) (w : Loans) (v : Nat) (evidence : List K) : Res ((Nat × Model K) × Loans) := do
  let ((c, m), w) ← m.findFamilyIn fails w v
  match c with
  | none => ok ((EINVAL, m), w)
  | some c => do
    let retraction ← loop (m.var v).card (fun i (r : Bool) => do
      let l ← rd (m.var v).likelihood i
      let e ← rd evidence i
      ok (if l = 0 ∧ e ≠ 0 then true else r)) false
    let m ← (if !retraction then m.multiplyEvidence c v evidence (some (m.var v).likelihood) else ok m)
    let m ← m.updateLikelihood v evidence
    let (m, w) ← (if retraction then m.globalRetractionIn fails w else ok (m, w))
    ok ((0, m), w)

/-- `nip_enter_index_observation`, `src/nipjointree.c:801-825`. -/
def enterIndexObservationIn (fails : Nat → Bool) (m : Model K) (w : Loans) (v : Nat) (index : Int) : Res ((Nat × Model K) × Loans) :=
  if index < 0 then ok ((0, m), w)
  else
    let (null, w) := w.calloc fails
    if null then ok ((ENOMEM, m), w)
    else do
      let evidence ← loop (m.var v).card (fun i e => wr e i (if (i : Int) = index then (1 : K) else 0))
        (List.replicate (m.var v).card 0)
      let (r, w) ← m.enterEvidenceIn fails w v evidence
      ok (r, w.free (some evidence))

/-- `nip_enter_prior`, `src/nipjointree.c:873-912` (non-null arguments). -/
def enterPriorIn (fails : Nat → Bool) (m : Model K) (w : Loans) (v : Nat) (prior : List K) : Res ((Nat × Model K) × Loans) := do
  let ((c, m), w) ← m.findFamilyIn fails w v
  let e ← loop (m.var v).card (fun i (e : Bool) => do
    let x ← rd prior i
    ok (if x > 0 then false else e)) true
  match c with
  | none => ok ((EINVAL, m), w)
  | some c =>
    if e then ok ((EINVAL, m), w)
    else do
      let m ← m.multiplyEvidence c v prior none
      ok ((0, m), w)

/-- `reset_model`, `src/nip.c:60-72`. -/
def resetIn (fails : Nat → Bool) (m : Model K) (w : Loans) : Res (Model K × Loans) := do
  let m ← m.varList.foldlM (fun (m : Model K) v => do
    let m ← m.resetLikelihood v
    ok (m.setVar v { m.var v with priorEntered := false })) m
  m.globalRetractionIn fails w

/-- One round of the loop of `use_priors`, `src/nip.c:91-114`; a failed assertion (no prior) is undefined behaviour. -/
def usePriorIn (fails : Nat → Bool) (hasHistory : Bool) (st : Model K × Loans) (v : Nat) : Res (Model K × Loans) :=
  match (st.1.var v).prior with
  | none => ub
  | some prior =>
    if !(st.1.var v).priorEntered then
      if !hasHistory || !(st.1.var v).oldOutgoing then do
        let ((_, m), w) ← st.1.enterPriorIn fails st.2 v prior
        ok (m.setVar v { m.var v with priorEntered := true }, w)
      else ok st
    else ok st

/-- `use_priors`, `src/nip.c:87-115`. -/
def usePriorsIn (fails : Nat → Bool) (m : Model K) (w : Loans) (hasHistory : Bool) : Res (Model K × Loans) :=
  m.independent.foldlM (usePriorIn fails hasHistory) (m, w)

/-- The function called for an operation, as in `History.lean` (citations at the definitions); `model_prob_mass` (`src/nip.c:2276-2280`) asks for no memory.  Results of questions are
dropped here, but stay allocated. -/
def performIn (fails : Nat → Bool) (st : Model K × Loans) : Op K → Res (Model K × Loans)
  | .evidence v e => do
    let (r, w) ← st.1.enterEvidenceIn fails st.2 v e
    ok (r.2, w)
  | .observe v i => do
    let (r, w) ← st.1.enterIndexObservationIn fails st.2 v i
    ok (r.2, w)
  | .reset => st.1.resetIn fails st.2
  | .priors h => st.1.usePriorsIn fails st.2 h
  | .propagate => st.1.makeConsistentIn fails st.2
  | .mass => do
    let r ← st.1.probMass
    ok (r.2, st.2)
  | .query v => do
    let (r, w) ← st.1.getProbabilityIn fails st.2 v
    ok (r.2, w)

/-- A sequence of calls. -/
def performAllIn (fails : Nat → Bool) (m : Model K) (w : Loans) (ops : List (Op K)) : Res (Model K × Loans) :=
  ops.foldlM (performIn fails) (m, w)

end Model

/-- A model is made from a file, with unlimited memory, then functions are called; `w` are the counters at the first of them.  A file that is not accepted ends in `ub`. -/
def NetFile.runFileIn (fails : Nat → Bool) (ptr : Nat) (f : NetFile K) (w : Loans) (ops : List (Op K)) : Res (Model K × Loans) := do
  let r ← NetFile.build ptr f
  match r with
  | none => ub
  | some m => m.performAllIn fails w ops

end Nip
