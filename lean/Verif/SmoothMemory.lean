import Verif.FilterMemory

/-!
# Model of forward-backward inference when memory runs out

The rounds of both phases of `forward_backward_inference` with the oracle and the counters of `InferMemory.lean`.  The log likelihood is not asked for.
-/

namespace Nip

open Res

variable {K : Type} [Zero K] [One K] [Add K] [_root_.Sub K] [Mul K] [Div K] [LinearOrder K]

/-- The message from the slice before, `src/nip.c:1457-1466` and `src/nip.c:1519-1530`. -/
def arriveStoredIn (fails : Nat → Bool) (s : Interface) (t : Nat) (m : Model K) (messages : List (Potential K)) (w : Loans) : Res (Model K × Loans) :=
  if 0 < t then do
    let a ← rd messages (t - 1)
    finishPassIn fails s true m a none w
  else ok (m, w)

/-- The message from the slice after, `src/nip.c:1535-1547`. -/
def arriveBackwardIn (fails : Nat → Bool) (s : Interface) (t length : Nat) (m : Model K) (messages : List (Potential K)) (w : Loans) : Res (Model K × Loans) :=
  if t + 1 < length then do
    let c ← rd messages (t + 1)
    let a ← rd messages t
    finishPassIn fails s false m c (some a) w
  else ok (m, w)

/-- The message to the slice before, `src/nip.c:1573-1583`. -/
def departBackwardIn (fails : Nat → Bool) (s : Interface) (t : Nat) (m : Model K) (messages : List (Potential K)) (w : Loans) : Res (List (Potential K) × Loans) :=
  if 0 < t then do
    let a ← rd messages t
    let (a, w) ← startPassIn fails s false m a w
    let messages ← wr messages t a
    ok (messages, w)
  else ok (messages, w)

/-- One round of the forward phase, `src/nip.c:1456-1513`, for `loglikelihood` NULL. -/
def smoothForwardIn (fails : Nat → Bool) (s : Interface) (marked : Nat → Bool) (ts : TimeSeries) (t : Nat) (st : Smoother K × Loans) : Res (Smoother K × Loans) := do
  let (m, w) ← arriveStoredIn fails s t st.1.model st.1.messages st.2
  let ((_, m), w) ← insertStepIn fails marked ts (t : Int) m w
  let (m, w) ← m.makeConsistentIn fails w
  let a ← rd st.1.messages t
  let (a, w) ← startPassIn fails s true m a w
  let messages ← wr st.1.messages t a
  let (m, w) ← m.resetIn fails w
  let (m, w) ← m.usePriorsIn fails w (decide (1 < ts.length))
  ok ({ model := m, messages := messages, ll := st.1.ll }, w)

/-- One round of the backward phase, `src/nip.c:1518-1591`. -/
def smoothBackwardIn (fails : Nat → Bool) (s : Interface) (marked : Nat → Bool) (ts : TimeSeries) (vars : List Nat) (t : Nat)
    (st : (Model K × List (Potential K) × List (List (List K))) × Loans) : Res ((Model K × List (Potential K) × List (List (List K))) × Loans) := do
  let (m, w) ← arriveStoredIn fails s t st.1.1 st.1.2.1 st.2
  let ((_, m), w) ← insertStepIn fails marked ts (t : Int) m w
  let (m, w) ← arriveBackwardIn fails s t ts.length m st.1.2.1 w
  let (m, w) ← m.makeConsistentIn fails w
  let ((row, m), w) ← posteriorsIn fails vars m w
  let results ← wr st.1.2.2 t row
  let (messages, w) ← departBackwardIn fails s t m st.1.2.1 w
  let (m, w) ← m.resetIn fails w
  let (m, w) ← m.usePriorsIn fails w (decide (1 < t))
  ok ((m, messages, results), w)

/-- `forward_backward_inference`, `src/nip.c:1342-1599`, for `loglikelihood` NULL: the results and the model.  Simplified: memory for the results and the messages (`src/nip.c:1353-1446`) is
always available and not counted. -/
def forwardBackwardIn (fails : Nat → Bool) (s : Interface) (marked : Nat → Bool) (ts : TimeSeries) (vars : List Nat) (m : Model K) (w : Loans) :
    Res ((List (List (List K)) × Model K) × Loans) := do
  let messages ← newMessages s m ts.length
  let (m, w) ← m.resetIn fails w
  let (m, w) ← m.usePriorsIn fails w false
  let (st, w) ← loop ts.length (smoothForwardIn fails s marked ts) ({ model := m, messages := messages, ll := 0 }, w)
  let blank := vars.map (fun v => List.replicate (m.var v).card (0 : K))
  let ((m, _, results), w) ← loopDown ts.length (smoothBackwardIn fails s marked ts vars) ((st.model, st.messages, List.replicate ts.length blank), w)
  ok ((results, m), w)

end Nip
