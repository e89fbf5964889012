import Verif.Potential
import Verif.Spec.NetFile

/-!
# Model of the reading of conditional tables: `nip_create_potential` (`src/nipjointree.c`) and the rules for potentials of `src/huginnet.y`

Variables are identities with a number of states.  Grammar and lexical analysis are not modelled: the rules get the variables named and the
list of numbers.
-/

namespace Nip

open Res

variable {K : Type} [Field K] [LinearOrder K]

/-- `temp_array`, `src/nipjointree.c:394-406`: for each variable the number of variables with a smaller identity. -/
def smallerCounts (vars : List Nat) : Res (List Nat) :=
  loop vars.length (fun i t => do
    let temp ← rd vars i
    loop vars.length (fun j t => do
      let v ← rd vars j
      if v > temp then do
        let n ← rd t j
        wr t j (n + 1)
      else ok t) t) (List.replicate vars.length 0)

/-- `reorder`, `src/nipjointree.c:408-409`. -/
def reordering (temp : List Nat) (n : Nat) : Res (List Nat) :=
  loop n (fun i r => do
    let k ← rd temp i
    wr r k i) (List.replicate n 0)

/-- The address in the given array, `src/nipjointree.c:453-461`. -/
def givenIndex (temp cardinality indices : List Nat) (n : Nat) : Res Nat := do
  let r ← loop n (fun j (st : Nat × Nat) => do
    let k ← rd temp j
    let x ← rd indices k
    let c ← rd cardinality k
    ok (st.1 + x * st.2, st.2 * c)) (0, 1)
  ok r.1

/-- `nip_create_potential`, `src/nipjointree.c:336-477`; `data = none` is the null pointer.  `none` is the null pointer returned if
`nip_new_potential` fails. -/
def createPotential (card : Nat → Nat) (vars : List Nat) (data : Option (List K)) : Res (Option (Potential K)) := do
  let temp ← smallerCounts vars
  let reorder ← reordering temp vars.length
  let (cardinality, size) ← loop vars.length (fun i (st : List Nat × Nat) => do
    let k ← rd reorder i
    let v ← rd vars k
    let a ← wr st.1 i (card v)
    ok (a, st.2 * card v)) (List.replicate vars.length 0, 1)
  let p ← Potential.new (K := K) cardinality vars.length none
  match p with
  | none => ok none
  | some p =>
    match data with
    | none => ok (some p)
    | some data => do
      let (cells, _) ← loop size (fun i (st : List K × List Nat) => do
        let indices ← Potential.inverseMapping p.card p.size i st.2
        let index ← givenIndex temp cardinality indices vars.length
        let x ← rd data index
        let cells ← wr st.1 i x
        ok (cells, indices)) (p.data, List.replicate vars.length 0)
      ok (some { p with data := cells })

/-- The list of the parents named, `src/huginnet.y:755-774`: each one is put in front of the list. -/
def parentList (symbols : List Nat) : List Nat := symbols.foldl (fun l v => v :: l) []

/-- The rules `potentialDeclaration`, `src/huginnet.y:585-743`: `symbols` are the parents after the bar (`none`: there is no bar), `data` the
numbers (`none`: no `data = …;`).  `none` is the end of parsing with an error.  All names are of declared variables. -/
def potentialDeclaration (card : Nat → Nat) (child : Nat) (symbols : Option (List Nat)) (data : Option (List K)) :
    Res (Option (Spec.Parsed K)) :=
  match symbols with
  | some symbols =>
    -- without a name after the bar there is no list of parents
    if symbols = [] then ok none
    else
      let parents := parentList symbols
      let family := child :: parents
      let size := family.foldl (fun s v => s * card v) 1
      if data.any (fun d => size > d.length) then ok none
      else do
        let p ← createPotential card family data
        match p with
        | none => ub
        | some p => do
          let p ← p.normaliseCpd
          ok (some { child := child, parents := parents, table := p })
  | none =>
    match data with
    | some d =>
      if card child > d.length then ok none
      else do
        let p ← createPotential card [child] (some d)
        match p with
        | none => ub
        | some p => do
          let p ← p.normalise
          ok (some { child := child, parents := [], table := p })
    | none => do
      let p ← createPotential (K := K) card [child] none
      match p with
      | none => ub
      | some p => ok (some { child := child, parents := [], table := p })

/-- A `potential` of the file: what is in parentheses, and the numbers. -/
structure Declaration (K : Type) where
  child : Nat
  symbols : Option (List Nat)
  data : Option (List K)

/-- The potentials of a file, one after another, `src/huginnet.y:581-743`; `nip_append_potential` (`src/nipjointree.c:1382-1404`) adds each one at
the end of the list. -/
def parseTables (card : Nat → Nat) : List (Declaration K) → Res (Option (List (Spec.Parsed K)))
  | [] => ok (some [])
  | d :: ds => do
    let q ← potentialDeclaration card d.child d.symbols d.data
    match q with
    | none => ok none
    | some q => do
      let r ← parseTables card ds
      match r with
      | none => ok none
      | some l => ok (some (q :: l))

end Nip
