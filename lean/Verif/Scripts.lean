import Verif.Spec.Scripts
import Mathlib.Data.Rat.Defs
import Mathlib.Algebra.Order.Ring.Rat

/-!
# Model of the awk scripts in `util/`

Of awk is modelled what the scripts use: a record is a line (the last one may lack its line end), the fields are what stands between commas, an empty record has no fields
(`NF` is zero); variables and elements of arrays that were not set are both the empty text and zero; two values are compared as numbers if both look like numbers (or were not
set) and came from the input or the command line, otherwise as texts.  Which texts look like numbers, and which number they are, is a parameter.
-/

namespace Nip

/-- the records of a file, with the record being read -/
def awkRecords : List Char → List Char → List (List Char)
  | [], [] => []
  | cur, [] => [cur]
  | cur, c :: cs => if c = '\n' then cur :: awkRecords [] cs else awkRecords (cur ++ [c]) cs

/-- the text between commas (`FS = ","`, `util/select.awk:26`, `util/hide_values.awk:43`), with the field being read -/
def awkBetween : List Char → List Char → List (List Char)
  | cur, [] => [cur]
  | cur, c :: cs => if c = ',' then cur :: awkBetween [] cs else awkBetween (cur ++ [c]) cs

/-- the fields of a record -/
def awkFields (r : List Char) : List (List Char) := if r = [] then [] else awkBetween [] r

/-- `==` between two values; `none` if not set -/
def awkEq (num : List Char → Option ℚ) : Option (List Char) → Option (List Char) → Bool
  | some a, some b =>
    match num a, num b with
    | some x, some y => decide (x = y)
    | _, _ => decide (a = b)
  | none, some b | some b, none =>
    match num b with
    | some y => decide (0 = y)
    | none => decide ([] = b)
  | none, none => true

/-- The variables of `util/select.awk`, what was printed, what was printed to standard error, and whether the script has come to `exit 1`. -/
structure Select where
  line : Nat := 0
  found : Bool := false
  name : Nat → Option (List Char) := fun _ => none
  out : List Char := []
  err : List Char := []
  exited : Bool := false

/-- The body of the loop over the fields, `util/select.awk:42-65`, for field `i` (counted from zero) of `nf`. -/
def Select.field (num : List Char → Option ℚ) (var : List Char) (nf : Nat) (s : Select) (f : List Char × Nat) : Select :=
  if s.exited then s
  else
    let s := if s.line = 0 then
        { s with name := Function.update s.name f.2 (some f.1), found := if awkEq num (some var) (some f.1) then true else s.found }
      else if s.line = 1 ∧ s.found = false then
        { s with err := s.err ++ "select.awk: Variable ".toList ++ var ++ " not found!\n".toList, exited := true }
      else s
    if s.exited then s
    else
      let s := if awkEq num (s.name f.2) (some var) then { s with out := s.out ++ f.1 } else s
      if f.2 + 1 = nf then { s with out := s.out ++ ['\n'], line := s.line + 1 } else s

/-- The rule, `util/select.awk:35-66`. -/
def Select.record (num : List Char → Option ℚ) (var : List Char) (s : Select) (r : List Char) : Select :=
  if s.exited then s
  else
    let fields := awkFields r
    let s := if fields.length = 0 then { s with out := s.out ++ r ++ ['\n'] } else s
    fields.zipIdx.foldl (Select.field num var fields.length) s

/-- `util/select.awk` with `var=…`: what is printed, what is printed to standard error, and the exit code. -/
def selectScript (num : List Char → Option ℚ) (var text : List Char) : List Char × List Char × Nat :=
  let s := (awkRecords [] text).foldl (Select.record num var) {}
  (s.out, s.err, if s.exited then 1 else 0)

/-- The variables of `util/hide_values.awk`, the number of random numbers drawn, and what was printed. -/
structure Hide where
  line : Nat := 0
  name : Nat → List Char := fun _ => []
  drawn : Nat := 0
  out : List Char := []

/-- The body of the loop over the fields, `util/hide_values.awk:73-100`.  Simplified: `random` are the numbers `int(rand() * 100)`; the table of probabilities
(`util/hide_values.awk:49-62`) is a parameter, zero for names that are not in it. -/
def Hide.field (prob : List Char → ℤ) (random : Nat → Nat) (nf : Nat) (s : Hide) (f : List Char × Nat) : Hide :=
  let s := if s.line = 0 then
      let s := { s with name := Function.update s.name f.2 f.1 }
      if prob (s.name f.2) = 0 then { s with out := s.out ++ "hidden_".toList ++ f.1 }
      else if 0 < prob (s.name f.2) then { s with out := s.out ++ f.1 }
      else s
    else
      let p := random s.drawn
      let s := { s with drawn := s.drawn + 1 }
      if (p : ℤ) < prob (s.name f.2) ∨ prob (s.name f.2) = 0 then { s with out := s.out ++ f.1 }
      else if 0 < prob (s.name f.2) then { s with out := s.out ++ "null".toList }
      else s
  if f.2 + 1 = nf then { s with out := s.out ++ ['\n'], line := s.line + 1 }
  else if 0 ≤ prob (s.name f.2) then { s with out := s.out ++ [','] }
  else s

/-- The rule, `util/hide_values.awk:66-101`. -/
def Hide.record (prob : List Char → ℤ) (random : Nat → Nat) (s : Hide) (r : List Char) : Hide :=
  let fields := awkFields r
  let s := if fields.length = 0 then { s with out := s.out ++ r ++ ['\n'] } else s
  fields.zipIdx.foldl (Hide.field prob random fields.length) s

/-- `util/hide_values.awk` with a table of probabilities: what is printed. -/
def hideScript (prob : List Char → ℤ) (random : Nat → Nat) (text : List Char) : List Char :=
  ((awkRecords [] text).foldl (Hide.record prob random) {}).out

/-- The table of probabilities in the script, `util/hide_values.awk:49-62`. -/
def hideTable (n : List Char) : ℤ :=
  if n = "A1".toList ∨ n = "Y1".toList then 100
  else if n = "B1".toList ∨ n = "D1".toList then 80
  else if n = "S1".toList then 10
  else if n ∈ ["A0".toList, "B0".toList, "C0".toList, "C1".toList, "D0".toList, "V0".toList, "S0".toList, "Y0".toList, "V1".toList] then -1
  else 0

end Nip
