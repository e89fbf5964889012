import Mathlib.Algebra.Order.Field.Basic
import Mathlib.Algebra.Order.Monoid.WithTop
import Verif.Basic

/-!
# Model of the control of parameter learning: the loop of `em_learn`, `src/nip.c`

The steps of the algorithm are arguments: functions on an arbitrary state `S` (the model and the table of parameters), which may fail with
any code and give any likelihood.  A log likelihood is a number or minus infinity (`⊥`, `-HUGE_DOUBLE`); a quotient `0/0` is not considered.
The C type `long` of the largest number of iterations is `Int`.
-/

namespace Nip

open Res

variable {K S : Type} [Field K] [LinearOrder K]

/-- `MIN_EM_ITERATIONS`, `src/nip.c:29`. -/
def minEmIterations : Nat := 3

/-- `nip_convergence`, `src/nip.h:66-73` (`LIKELIHOOD` is never used). -/
inductive Convergence where
  | delta
  | likelihood
  | iterations
deriving Repr, DecidableEq

/-- The arguments of the loop: `m_step`, `e_step` for each series, resetting the tables to pseudo counts; the number of series, of time steps
(`ts_steps`), the largest number of iterations and the threshold; `low` is `-DBL_MAX`, and `asserts` says that the program was compiled with
assertions. -/
structure EmTask (K S : Type) where
  mStep : S → Nat × S
  eStep : Nat → S → Nat × S × WithBot K
  uniform : S → S
  series : Nat
  steps : Nat
  maxIterations : Int
  threshold : K
  low : K
  asserts : Bool

/-- What the caller of `em_learn` gets: the code, the stopping criterion if it was set, the learning curve, and the final state.  The values
of the curve are not divided by the number of time steps. -/
structure EmResult (K S : Type) where
  code : Nat
  criterion : Option Convergence
  curve : List (WithBot K)
  state : S

namespace EmTask

/-- The E-step of all series, `src/nip.c:2189-2217`: code, state and sum of likelihoods.  A failing assertion ends the program; this is `ub`. -/
def eSteps (a : EmTask K S) (s : S) : Res (Nat × S × WithBot K) :=
  loop a.series (fun n (st : Nat × S × WithBot K) =>
    if st.1 ≠ 0 then ok st
    else
      let (e, s, probe) := a.eStep n st.2.1
      if e ≠ 0 then ok (e, s, st.2.2)
      else if a.asserts ∧ ¬ (⊥ < probe ∧ probe ≤ 0) then ub
      else ok (0, s, st.2.2 + probe)) (0, s, 0)

/-- The `do` loop of `em_learn`, `src/nip.c:2162-2264`; `ll` is the likelihood of the previous round, `i` the number of completed rounds.  The
caller collects the learning curve and its function `em_progress` succeeds. -/
def emLoop (a : EmTask K S) : (fuel i : Nat) → (ll : WithBot K) → (curve : List (WithBot K)) → S → Res (EmResult K S)
  | 0, _, _, _, _ => ub
  | fuel + 1, i, ll, curve, s =>
    let (e, s) := a.mStep s
    if e ≠ 0 then ok { code := e, criterion := none, curve := [], state := s }
    else do
      let old := ll
      let (e, s, ll) ← a.eSteps (a.uniform s)
      if e ≠ 0 then
        ok { code := e, criterion := none, curve := if e ≠ NIP_ERROR_BAD_LUCK then [] else curve, state := s }
      else
        let curve := curve ++ [ll]
        let t : K := (a.steps : K) * a.threshold
        if old > ll + (t : WithBot K) ∨ ll > 0 ∨ ll = ⊥ then
          ok { code := NIP_ERROR_BAD_LUCK, criterion := none, curve := curve, state := s }
        else
          let i := i + 1
          if i ≥ minEmIterations then
            -- `(loglikelihood - old_loglikelihood) > (ts_steps * threshold)`, for finite numbers
            if ll > old + (t : WithBot K) then
              if (i : Int) ≥ a.maxIterations then ok { code := 0, criterion := some .iterations, curve := curve, state := s }
              else emLoop a fuel i ll curve s
            else ok { code := 0, criterion := some .delta, curve := curve, state := s }
          else emLoop a fuel i ll curve s

/-- The loop from its start, `src/nip.c:2158-2264`. -/
def em (a : EmTask K S) (fuel : Nat) (s : S) : Res (EmResult K S) := a.emLoop fuel 0 (a.low : WithBot K) [] s

end EmTask

end Nip
