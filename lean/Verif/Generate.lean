import Verif.Dynamic
import Verif.Sampling

/-!
# Model of `generate_data`, `src/nip.c`

The random number for the variable at place `i` of the order of sampling at time step `t` is the argument `r t i`; it stands for
`(double)rand() / RAND_MAX`, which is drawn once in each call of `lottery`.
-/

namespace Nip

open Res Spec

variable {K : Type} [Zero K] [One K] [Add K] [Sub K] [Mul K] [Div K] [LinearOrder K]

/-- One round of the loop over variables, `src/nip.c:2471-2483`: the model and the row `ts->data[t]`.  `lottery` reads through the null pointer
if `get_probability` fails; the code returned by `nip_enter_index_observation` is dropped. -/
def drawVariable (order : List Nat) (r : Nat → K) (i : Nat) (st : Model K × List Int) : Res (Model K × List Int) := do
  let m ← st.1.makeConsistent
  let v ← rd order i
  let (d, m) ← m.getProbability v
  match d with
  | none => ub
  | some d => do
    let (k, _) ← lottery d (m.var v).card (r i)
    let row ← wr st.2 i k
    let (_, m) ← m.enterIndexObservation v k
    ok (m, row)

/-- The variables of the loop over time steps. -/
structure Generator (K : Type) where
  model : Model K
  alpha : Potential K
  data : List (List Int)

/-- One round of the loop over time steps, `src/nip.c:2457-2497`. -/
def generateStep (s : Interface) (order : List Nat) (r : Nat → Nat → K) (t : Nat) (st : Generator K) : Res (Generator K) := do
  let m ← arriveForward s t st.model st.alpha
  let row ← rd st.data t
  let (m, row) ← loop order.length (drawVariable order (r t)) (m, row)
  let data ← wr st.data t row
  let m ← m.makeConsistent
  let alpha ← startPass s true m st.alpha
  let m ← m.reset
  let m ← m.usePriors true
  ok { model := m, alpha := alpha, data := data }

/-- `generate_data`, `src/nip.c:2348-2500`, for a length that is not negative; memory is always available.  `mark` gives the marks of variables
beforehand (all variables are marked afterwards), `fuel` bounds the rounds of the `while` loop (see `samplingOrder`). -/
def generateData (s : Interface) (mark : Nat → Bool) (fuel : Nat) (r : Nat → Nat → K) (length : Nat) (m : Model K) : Res (TimeSeries × Model K) := do
  let order ← samplingOrder (fun v => (m.var v).parents) m.varList mark fuel
  let alpha ← newMessage s m
  let m ← m.reset
  let m ← m.usePriors false
  let st ← loop length (generateStep s order r)
    { model := m, alpha := alpha, data := List.replicate length (List.replicate order.length 0) }
  ok ({ numVars := m.varList.length, numHidden := 0, hidden := [], numObserved := order.length, observed := order, length := length, data := st.data },
    st.model)

end Nip
