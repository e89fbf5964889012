import Verif.StepMemory

/-!
# Model of forward inference when memory runs out

The messages between time slices, the results of a slice and the loop of `forward_inference`, with the oracle and the counters of `InferMemory.lean`.  The log likelihood is not asked for.
Error messages are left out.
-/

namespace Nip

open Res

variable {K : Type} [Zero K] [One K] [Add K] [_root_.Sub K] [Mul K] [Div K] [LinearOrder K]

/-- `start_timeslice_message_pass`, `src/nip.c:1058-1093`: the new contents of `alpha_or_gamma`.  The mapping is not checked: reading an element of a mapping that is NULL is reading beyond the
end of an empty array, as in `JTree.messagePassIn`. -/
def startPassIn (fails : Nat → Bool) (s : Interface) (forward : Bool) (m : Model K) (a : Potential K) (w : Loans) : Res (Potential K × Loans) :=
  if s.out.length = 0 then ok (a.uniform 1, w)
  else
    match (if forward then s.outClique else s.inClique) with
    | none => ub
    | some c => do
      let cl ← rd m.tree.cliques c
      let (mapping, w) ← mapperIn fails w cl.vars (if forward then s.out else s.prev)
      let (_, a) ← Potential.generalMarginalise cl.p a (mapping.getD [])
      let w := w.free mapping
      let a ← a.normalise
      ok (a, w)

/-- `finish_timeslice_message_pass`, `src/nip.c:1096-1125`.  The mapping is not checked. -/
def finishPassIn (fails : Nat → Bool) (s : Interface) (forward : Bool) (m : Model K) (num : Potential K) (den : Option (Potential K)) (w : Loans) : Res (Model K × Loans) :=
  if s.out.length = 0 then ok (m, w)
  else
    match (if forward then s.inClique else s.outClique) with
    | none => ub
    | some c => do
      let cl ← rd m.tree.cliques c
      let (mapping, w) ← mapperIn fails w cl.vars (if forward then s.prev else s.out)
      let (_, p) ← Potential.update (some num) den cl.p (mapping.getD [])
      let w := w.free mapping
      let cs ← wr m.tree.cliques c { cl with p := p }
      ok ({ m with tree := { m.tree with cliques := cs } }, w)

/-- The result written for one variable, `src/nip.c:1296-1312`.  A failed assertion is undefined behaviour. -/
def posteriorIn (fails : Nat → Bool) (m : Model K) (v : Nat) (w : Loans) : Res ((List K × Model K) × Loans) := do
  let ((c, m), w) ← m.findFamilyIn fails w v
  match c with
  | none => ub
  | some c => do
    let (_, r) ← m.tree.marginaliseClique c v (List.replicate (m.var v).card 0)
    let r ← Potential.normaliseArray r 0 (m.var v).card
    ok ((r, m), w)

/-- The results written for one time slice, the loop around `posteriorIn`. -/
def posteriorsIn (fails : Nat → Bool) (vars : List Nat) (m : Model K) (w : Loans) : Res ((List (List K) × Model K) × Loans) :=
  vars.foldlM (fun (st : (List (List K) × Model K) × Loans) v => do
    let ((r, m), w) ← posteriorIn fails st.1.2 v st.2
    ok ((st.1.1 ++ [r], m), w)) (([], m), w)

/-- One round of `forward_inference`, `src/nip.c:1236-1333`, for `loglikelihood` NULL. -/
def forwardStepIn (fails : Nat → Bool) (s : Interface) (marked : Nat → Bool) (ts : TimeSeries) (vars : List Nat) (t : Nat) (st : Filter K × Loans) : Res (Filter K × Loans) := do
  let (m, w) ← (if 0 < t then finishPassIn fails s true st.1.model st.1.alpha none st.2 else ok (st.1.model, st.2))
  let ((_, m), w) ← insertStepIn fails marked ts (t : Int) m w
  let (m, w) ← m.makeConsistentIn fails w
  let ((row, m), w) ← posteriorsIn fails vars m w
  let (alpha, w) ← startPassIn fails s true m st.1.alpha w
  let (m, w) ← m.resetIn fails w
  let (m, w) ← m.usePriorsIn fails w true
  ok ({ model := m, alpha := alpha, results := st.1.results ++ [row], ll := st.1.ll }, w)

/-- `forward_inference`, `src/nip.c:1130-1337`, for `loglikelihood` NULL: the results and the model.  Simplified: memory for the array of results and for the message (`src/nip.c:1141-1226`) is
always available and not counted. -/
def forwardInferenceIn (fails : Nat → Bool) (s : Interface) (marked : Nat → Bool) (ts : TimeSeries) (vars : List Nat) (m : Model K) (w : Loans) :
    Res ((List (List (List K)) × Model K) × Loans) := do
  let alpha ← newMessage s m
  let (m, w) ← m.resetIn fails w
  let (m, w) ← m.usePriorsIn fails w false
  let (st, w) ← loop ts.length (forwardStepIn fails s marked ts vars) ({ model := m, alpha := alpha, results := [], ll := 0 }, w)
  ok ((st.results, st.model), w)

end Nip
