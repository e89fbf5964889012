import Verif.Series

/-!
# Model of `mlss` of `src/nip.c`
-/

namespace Nip

open Res

/-- The loop that looks for the variables that are not asked for, `src/nip.c:1684-1700`, with an array of `n` places; the `break` at line 1687 is a pass that does nothing. -/
def mlssHidden (vars asked : List Nat) (n : Nat) : Res (List (Option Nat) × Nat) :=
  loop vars.length (fun i (st : List (Option Nat) × Nat) =>
    if st.2 = n then ok st
    else do
      let v ← rd vars i
      let k ← firstIdx (fun j => do
        let u ← rd asked j
        ok (v == u)) 0 asked.length
      match k with
      | some _ => ok st
      | none => do
        let a ← wr st.1 st.2 (some v)
        ok (a, st.2 + 1)) (List.replicate n none, 0)

/-- `mlss`, `src/nip.c:1639-1717`, for a model with the variables `vars`: what is returned and the number of errors reported.  The first `none` is the return because a negative
number of places is requested from `calloc` (`src/nip.c:1654`).  Simplified: other allocations do not fail; places of `hidden` that were not filled are null pointers and left
out. -/
def mlss (vars asked : List Nat) (ts : TimeSeries) : Res (Option TimeSeries × Nat) :=
  let numHidden : Int := vars.length - asked.length
  if numHidden < 0 then ok (none, 1)
  else do
    let h ← mlssHidden vars asked numHidden.toNat
    ok (some ⟨vars.length, numHidden, h.1.filterMap id, asked.length, asked, ts.length, List.replicate ts.length (List.replicate asked.length 0)⟩, 1)

end Nip
