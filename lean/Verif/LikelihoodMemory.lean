import Verif.FilterMemory

/-!
# Model of forward inference with the log likelihood when memory runs out

The round and the loop of `forward_inference` for `loglikelihood` not NULL, with the oracle and the counters of `InferMemory.lean`.
-/

namespace Nip

open Res

variable {K : Type} [Zero K] [One K] [Add K] [_root_.Sub K] [Mul K] [Div K] [LinearOrder K]

/-- The part of a round that enters the data of a time slice, `src/nip.c:1256-1282`, with the likelihood.  `model_prob_mass` (`src/nip.c:2276-2280`, `src/nipjointree.c:1141-1155`) asks for no memory.  A failed
assertion is undefined behaviour. -/
def absorbIn (fails : Nat → Bool) (g : Logs K) (marked : Nat → Bool) (ts : TimeSeries) (t : Nat) (m : Model K) (ll : K) (w : Loans) : Res ((Model K × K) × Loans) := do
  let (m, w) ← m.makeConsistentIn fails w
  let (m1, m) ← m.probMass
  let ((_, m), w) ← insertStepIn fails marked ts (t : Int) m w
  let (m, w) ← m.makeConsistentIn fails w
  let (m2, m) ← m.probMass
  let ll := if 0 < m1 ∧ 0 < m2 then ll + (g.log m2 - g.log m1) else ll
  if 0 ≤ m2 then ok ((m, if m2 = 0 then g.lowest else ll), w) else ub

/-- One round of `forward_inference`, `src/nip.c:1236-1333`, with the likelihood. -/
def forwardRoundIn (fails : Nat → Bool) (g : Logs K) (s : Interface) (marked : Nat → Bool) (ts : TimeSeries) (vars : List Nat) (t : Nat) (st : Filter K × Loans) : Res (Filter K × Loans) := do
  let (m, w) ← (if 0 < t then finishPassIn fails s true st.1.model st.1.alpha none st.2 else ok (st.1.model, st.2))
  let ((m, ll), w) ← absorbIn fails g marked ts t m st.1.ll w
  let ((row, m), w) ← posteriorsIn fails vars m w
  let (alpha, w) ← startPassIn fails s true m st.1.alpha w
  let (m, w) ← m.resetIn fails w
  let (m, w) ← m.usePriorsIn fails w true
  ok ({ model := m, alpha := alpha, results := st.1.results ++ [row], ll := ll }, w)

/-- `forward_inference`, `src/nip.c:1130-1337`, with the likelihood: the results, the log likelihood and the model.  Simplified: memory for the array of results and for the message
(`src/nip.c:1141-1226`) is always available and not counted. -/
def forwardLikelihoodIn (fails : Nat → Bool) (g : Logs K) (s : Interface) (marked : Nat → Bool) (ts : TimeSeries) (vars : List Nat) (m : Model K) (w : Loans) :
    Res ((List (List (List K)) × K × Model K) × Loans) := do
  let alpha ← newMessage s m
  let (m, w) ← m.resetIn fails w
  let (m, w) ← m.usePriorsIn fails w false
  let (st, w) ← loop ts.length (forwardRoundIn fails g s marked ts vars) ({ model := m, alpha := alpha, results := [], ll := 0 }, w)
  ok ((st.results, st.ll, st.model), w)

end Nip
