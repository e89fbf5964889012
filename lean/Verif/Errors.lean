import Verif.Basic

/-!
# Model of `src/niperrorhandler.c`

The two static variables of the file form a state.  `int` has the values up to `intMax`; counting beyond it is undefined behaviour.
The text printed to the error stream is not modelled.
-/

namespace Nip

open Res

/-- The largest `int` of the usual platforms (32 bits). -/
def intMax : Nat := 2 ^ 31 - 1

/-- `NIP_ERROR_CODE` and `NIP_ERROR_COUNTER`, `src/niperrorhandler.c:26-30`. -/
structure ErrorState where
  code : Int
  counter : Nat
deriving Repr, DecidableEq

namespace ErrorState

/-- Initial values, `src/niperrorhandler.c:26-30`. -/
def start : ErrorState := { code := 0, counter := 0 }

/-- `nip_report_error`, `src/niperrorhandler.c:32-56`: the value returned and the new state. -/
def report (e : ErrorState) (error : Int) : Res (Int × ErrorState) :=
  if intMax < e.counter + 1 then ub
  else ok (error, { code := error, counter := e.counter + 1 })

/-- `nip_reset_error_handler`, `src/niperrorhandler.c:58-61`. -/
def reset (_ : ErrorState) : ErrorState := { code := 0, counter := 0 }

/-- `nip_check_error_type`, `src/niperrorhandler.c:63-65`. -/
def checkType (e : ErrorState) : Int := e.code

/-- `nip_check_error_counter`, `src/niperrorhandler.c:67-69`. -/
def checkCounter (e : ErrorState) : Nat := e.counter

end ErrorState

/-- A call of the error handler that changes its state. -/
inductive ErrorCall where
  | report (error : Int)
  | reset
deriving Repr, DecidableEq

/-- One call. -/
def ErrorState.call (e : ErrorState) : ErrorCall → Res ErrorState
  | .report c => do
    let (_, e) ← e.report c
    ok e
  | .reset => ok e.reset

/-- The calls of a program, in order. -/
def ErrorState.calls (e : ErrorState) (l : List ErrorCall) : Res ErrorState := l.foldlM ErrorState.call e

end Nip
