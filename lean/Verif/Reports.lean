import Verif.Whole
import Verif.WriteModel

/-!
# Model of `main` of `niplikelihood`, `nipjoint` and `nipconvert`

A process reads one network file and one data file.  Files can be opened and written.  What is printed is the text written to `stdout`.
-/

namespace Nip

open Res Spec

variable {K : Type} [Field K] [LinearOrder K]

/-- How `printf` shows a number with `%g`: a number of `K`, and the results of `log` and of divisions that are not numbers of `K`. -/
structure Shown (K : Type) where
  number : K → List Char
  minusInf : List Char
  plusInf : List Char
  nan : List Char

/-- `%g` of `log(b) - log(a)`. -/
def Shown.logDifference (g : Shown K) (lg : Logs K) (a b : K) : List Char :=
  if a < 0 ∨ b < 0 then g.nan
  else if a = 0 then (if b = 0 then g.nan else g.plusInf)
  else if b = 0 then g.minusInf
  else g.number (lg.log b - lg.log a)

/-- `%g` of `log(b / a)`. -/
def Shown.logQuotient (g : Shown K) (lg : Logs K) (a b : K) : List Char :=
  if a = 0 then (if 0 < b then g.plusInf else g.nan)
  else if b / a < 0 then g.nan
  else if b / a = 0 then g.minusInf
  else g.number (lg.log (b / a))

/-! ## `niplikelihood` -/

/-- The lines of all series, `util/niplikelihood.c:111-136`, made of the numbers `m1` and `m2`. -/
def likelihoodText (lg : Logs K) (g : Shown K) (l : List (List (K × K))) : List Char :=
  l.foldl (fun out r =>
    r.foldl (fun out q => out ++ g.number q.1 ++ [' '] ++ g.number q.2 ++ [' '] ++ g.logDifference lg q.1 q.2 ++ ['\n']) out ++ ['\n']) []

/-- `main` of `niplikelihood`, `util/niplikelihood.c:54-144`, with at least one name: the exit code and the text printed. -/
def likelihoodMain (lg : Logs K) (g : Shown K) (num : Numerals K) (ptr : Nat) (s : Session K) (net data : List Char) (names : List (List Char)) : Res (Int × List Char) := do
  let title := "niplikelihood:\n".toList
  let o ← openFiles num ptr s net data
  match o with
  | none => ok (-1, title)
  | some (r, _, set) => do
    let l ← niplikelihood r.texts r.file.vars names set r.model
    match l with
    | none => ok (-1, title)
    | some l => ok (0, title ++ likelihoodText lg g l)

/-! ## `nipjoint` -/

/-- `nip_fprintf_potential`, `src/nippotential.c:548-566`; `fmt` is `%f`. -/
def printPotential (fmt : K → List Char) (p : Potential K) : Res (List Char) :=
  if p.dim = 0 then do
    let a ← rd p.data 0
    ok ("P(0) = ".toList ++ fmt a ++ ['\n'])
  else
    loop p.size (fun k out => do
      let index ← p.indicesOf k
      let out ← loop p.dim (fun i out => do
        let j ← rd index i
        ok (out ++ printNat j ++ (if i < p.dim - 1 then ", ".toList else []))) (out ++ "P(".toList)
      let a ← rd p.data k
      ok (out ++ ") = ".toList ++ fmt a ++ ['\n'])) []

/-- The names of the variables, `util/nipjoint.c:133-137`.  There is at least one. -/
def printSymbols (x : VarTexts) (vars : List Nat) : Res (List Char) := do
  let out ← loop (vars.length - 1) (fun i out => do
    let v ← rd vars i
    ok (out ++ x.symbol v ++ ", ".toList)) "P(".toList
  let v ← rd vars (vars.length - 1)
  ok (out ++ x.symbol v ++ ") equals: \n".toList)

/-- What is printed at the end, `util/nipjoint.c:132-142`. -/
def jointText (lg : Logs K) (fmt : K → List Char) (g : Shown K) (x : VarTexts) (r : JointReport K) : Res (List Char) := do
  let a ← printSymbols x r.vars
  let b ← printPotential fmt r.table
  ok (a ++ b ++ "Marginal probability before evidence: m1 = ".toList ++ g.number r.m1 ++ "\nMarginal probability after evidence : m2 = ".toList ++ g.number r.m2 ++
    "\nLog. likelihood: ln(m2/m1) = ".toList ++ g.logQuotient lg r.m1 r.m2 ++ ['\n'])

/-- `main` of `nipjoint`, `util/nipjoint.c:48-153`: the exit code and the text printed. -/
def jointMain (lg : Logs K) (fmt : K → List Char) (g : Shown K) (num : Numerals K) (ptr : Nat) (s : Session K) (net data : List Char) (names : List (List Char)) :
    Res (Int × List Char) := do
  let title := "nipjoint:\n".toList
  let o ← openFiles num ptr s net data
  match o with
  | none => ok (-1, title)
  | some (r, _, set) => do
    let j ← nipjoint r.texts r.file.vars names set r.model
    match j with
    | none => ok (-1, title)
    | some j => do
      let text ← jointText lg fmt g r.texts j
      ok (0, title ++ text)

/-! ## `nipconvert` -/

/-- `strcasecmp(a, b) == 0`, in the C locale. -/
def sameLetters (a b : List Char) : Bool := a.map Char.toLower == b.map Char.toLower

/-- `main` of `nipconvert`, `util/nipconvert.c:180-264`, with all its arguments: the exit code and the contents of the output file, if it is written. -/
def convertMain (num : Numerals K) (ptr : Nat) (s : Session K) (net inFormat data outFormat : List Char) : Res (Int × Option (List Char)) := do
  let o ← openModel num ptr s net
  match o with
  | none => ok (-1, none)
  | some (r, _) =>
    if sameLetters inFormat "univariate".toList = false then ok (-1, none)
    else if sameLetters outFormat "unary".toList = false then ok (-1, none)
    else do
      let set ← readTimeseries r.texts r.file.vars data
      match set with
      | none => ok (-1, none)
      | some set =>
        if set.length < 1 then ok (-1, none)
        else do
          let (k, text) ← writeUnary r.texts set
          if k ≠ 0 then ok (-1, none) else ok (0, text)

end Nip
