import Verif.HistoryMemory
import Verif.Dynamic
import Verif.Named

/-!
# Model of entering observations by time step and by name when memory runs out

`insert_ts_step`, `nip_enter_observation` and `insert_hard_evidence` with the oracle and the counters of `InferMemory.lean`.  Error messages are left out.
-/

namespace Nip

open Res Spec

variable {K : Type} [Zero K] [One K] [Add K] [_root_.Sub K] [Mul K] [Div K] [LinearOrder K]

/-- `insert_ts_step`, `src/nip.c:1009-1029`; `marked` tells which variables have the mark asked for.  Codes returned by
`nip_enter_index_observation` are dropped, ENOMEM among them. -/
def insertStepIn (fails : Nat → Bool) (marked : Nat → Bool) (ts : TimeSeries) (t : Int) (m : Model K) (w : Loans) : Res ((Nat × Model K) × Loans) :=
  if t < 0 ∨ (ts.length : Int) ≤ t then ok ((EINVAL, m), w)
  else do
    let (m, w) ← loop ((ts.numVars : Int) - ts.numHidden).toNat (fun i (st : Model K × Loans) => do
      let v ← rd ts.observed i
      if marked v then do
        let row ← rd ts.data t.toNat
        let d ← rd row i
        if 0 ≤ d then do
          let (r, w) ← st.1.enterIndexObservationIn fails st.2 v d
          ok (r.2, w)
        else ok st
      else ok st) (m, w)
    ok ((0, m), w)

/-- `nip_enter_observation`, `src/nipjointree.c:789-798`; `stateNames` are the names of the states of `v`. -/
def Model.enterObservationIn (fails : Nat → Bool) (m : Model K) (w : Loans) (v : Nat) (stateNames : Option (List String)) (state : String) :
    Res ((Nat × Model K) × Loans) := do
  let i ← stateIndex (m.var v).card stateNames state
  match i with
  | none => ok ((0, m), w)
  | some i => m.enterIndexObservationIn fails w v (i : Int)

/-- `insert_hard_evidence`, `src/nip.c:978-991`: inference follows whether or not the observation was entered. -/
def insertHardIn (fails : Nat → Bool) (nodes : List NodeRec) (varname observation : List Char) (m : Model K) (w : Loans) : Res ((Nat × Model K) × Loans) :=
  match modelVariable nodes varname with
  | none => ok ((EINVAL, m), w)
  | some v => do
    let ((ret, m), w) ← m.enterObservationIn fails w v.id (some (v.states.map String.ofList)) (String.ofList observation)
    let (m, w) ← m.makeConsistentIn fails w
    ok ((ret, m), w)

end Nip
