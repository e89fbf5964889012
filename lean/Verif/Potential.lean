import Verif.Basic
import Mathlib.Algebra.Order.Field.Basic

/-!
# Model of `src/nippotential.c`

A potential is the list of cardinalities of its dimensions and the flat table of cells.  `double` is an
arbitrary linearly ordered field `K`.  In the C structure `dimensionality` is `card.length` and `size_of_data`
is `data.length`.  The scratch array `temp_index` of a potential is a local value here.
-/

namespace Nip

open Res

/-- `nip_potential_struct` (`src/nippotential.h:48-55`).  Simplified: no scratch index array and no
application specific properties. -/
structure Potential (K : Type) where
  card : List Nat
  data : List K
deriving Repr, DecidableEq

namespace Potential

variable {K : Type} [Zero K] [One K] [Add K] [Sub K] [Mul K] [Div K] [LinearOrder K]

/-- `NIP_DIMENSIONALITY(p)`. -/
def dim (p : Potential K) : Nat := p.card.length

/-- `size_of_data`. -/
def size (p : Potential K) : Nat := p.data.length

/-- `nip_get_potential_pointer`, `src/nippotential.c:58-68`: the position in `data` for an index tuple.
(The dereference happens in the callers.) -/
def pointer (card indices : List Nat) : Res Nat := do
  let r ← loop card.length (fun i (st : Nat × Nat) => do
    let x ← rd indices i
    let c ← rd card i
    ok (st.1 + x * st.2, st.2 * c)) (0, 1)
  ok r.1

/-- `nip_choose_potential_indices`, `src/nippotential.c:72-81`: `dest[i] = source[mapping[i]]`.
The destination array always has at least `n` elements in the callers, so it is built afresh here. -/
def choose (source mapping : List Nat) (n : Nat) : Res (List Nat) :=
  loop n (fun i acc => do
    let m ← rd mapping i
    let v ← rd source m
    ok (acc ++ [v])) []

/-- The size computed in `nip_new_potential`, `src/nippotential.c:121-125`. -/
def sizeOf (card : List Nat) (dimensionality : Nat) : Res Nat :=
  loop dimensionality (fun i d => do
    let c ← rd card i
    ok (d * c)) 1

/-- `nip_new_potential`, `src/nippotential.c:84-150`.  `none` is the null pointer returned for a negative
dimensionality (94-97).  `data = none` is the null pointer (all cells become one, 138-141). -/
def new (card : List Nat) (dimensionality : Int) (data : Option (List K)) : Res (Option (Potential K)) :=
  if dimensionality < 0 then ok none
  else do
    let d := dimensionality.toNat
    let dsize ← sizeOf card d
    match data with
    | none => ok (some { card := card.take d, data := List.replicate dsize 1 })
    | some a => do
      let cells ← loop dsize (fun i (acc : List K) => do
        let v ← rd a i
        ok (acc ++ [v])) []
      ok (some { card := card.take d, data := cells })

/-- `nip_retract_potential`, `src/nippotential.c:182-198` (null pointers, 184-185, not modelled): error code and
the new value of `p`. -/
def retract (p ref : Potential K) : Res (Nat × Potential K) :=
  if p.dim ≠ ref.dim then ok (EINVAL, p)
  else if (List.range p.dim).any (fun i => p.card[i]? != ref.card[i]?) then ok (EINVAL, p)
  else do
    let cells ← loop p.size (fun i (acc : List K) => do
      let v ← rd ref.data i
      wr acc i v) p.data
    ok (0, { p with data := cells })

/-- `nip_uniform_potential`, `src/nippotential.c:212-219`. -/
def uniform (p : Potential K) (value : K) : Potential K :=
  { p with data := List.replicate p.size value }

/-- `nip_get_potential_value`, `src/nippotential.c:233-240` (the pointer is never null). -/
def getValue (p : Potential K) (indices : List Nat) : Res K := do
  let k ← pointer p.card indices
  rd p.data k

/-- `nip_set_potential_value`, `src/nippotential.c:243-248`. -/
def setValue (p : Potential K) (indices : List Nat) (value : K) : Res (Potential K) := do
  let k ← pointer p.card indices
  let d ← wr p.data k value
  ok { p with data := d }

/-- `nip_inverse_mapping`, `src/nippotential.c:251-264`: fills `indices`, state is (x, flat_index, indices).
The subtraction never underflows since `(flat / x) * x ≤ flat`. -/
def inverseMapping (card : List Nat) (size flat : Nat) (indices : List Nat) : Res (List Nat) := do
  let r ← loopDown card.length (fun i (st : Nat × Nat × List Nat) => do
    let c ← rd card i
    let x ← divC st.1 c
    let q ← divC st.2.1 x
    let ind ← wr st.2.2 i q
    ok (x, st.2.1 - q * x, ind)) (size, flat, indices)
  ok r.2.2

/-- `nip_inverse_mapping(p, flat, p->temp_index)`. -/
def indicesOf (p : Potential K) (flat : Nat) : Res (List Nat) :=
  inverseMapping p.card p.size flat (List.replicate p.dim 0)

/-- `nip_general_marginalise`, `src/nippotential.c:267-306`: error code and the new destination. -/
def generalMarginalise (source destination : Potential K) (mapping : List Nat) :
    Res (Nat × Potential K) :=
  if destination.dim > source.dim then ok (EINVAL, destination)
  else if destination.dim = 0 then do
    let d0 ← wr destination.data 0 0
    let d ← loop source.size (fun i (d : List K) => do
      let a ← rd d 0
      let s ← rd source.data i
      wr d 0 (a + s)) d0
    ok (0, { destination with data := d })
  else do
    let d ← loop source.size (fun i (d : List K) => do
      let idx ← source.indicesOf i
      let didx ← choose idx mapping destination.dim
      let k ← pointer destination.card didx
      let a ← rd d k
      let s ← rd source.data i
      wr d k (a + s)) (destination.uniform 0).data
    ok (0, { destination with data := d })

/-- The partial inverse mapping in `nip_total_marginalise`, `src/nippotential.c:329-335`:
`for(j = dim - 1; j >= var; j--)`, state is (x, flat_index, index). -/
def partialIndex (card : List Nat) (size flat var : Nat) : Res Nat := do
  let r ← loopDown (card.length - var) (fun j (st : Nat × Nat × Nat) => do
    let c ← rd card (var + j)
    let x ← divC st.1 c
    let q ← divC st.2.1 x
    ok (x, st.2.1 - q * x, q)) (size, flat, 0)
  ok r.2.2

/-- `nip_total_marginalise`, `src/nippotential.c:309-340`: error code and the new result array. (The branch 318-321
for dimensionality zero cannot be reached.) -/
def totalMarginalise (source : Potential K) (destination : List K) (var : Int) :
    Res (Nat × List K) :=
  if var < 0 ∨ var ≥ (source.dim : Int) then ok (EINVAL, destination)
  else do
    let v := var.toNat
    let c ← rd source.card v
    let d0 ← loop c (fun i (d : List K) => wr d i 0) destination
    let d ← loop source.size (fun i (d : List K) => do
      let index ← partialIndex source.card source.size i v
      let a ← rd d index
      let s ← rd source.data i
      wr d index (a + s)) d0
    ok (0, d)

/-- `nip_normalise_array(&result[off], n)`, `src/nippotential.c:343-353`. -/
def normaliseArray (result : List K) (off n : Nat) : Res (List K) := do
  let sum ← loop n (fun i (sum : K) => do
    let v ← rd result (off + i)
    ok (sum + v)) 0
  if sum = 0 then ok result
  else loop n (fun i (r : List K) => do
    let v ← rd r (off + i)
    wr r (off + i) (v / sum)) result

/-- `nip_normalise_potential`, `src/nippotential.c:357-362`. -/
def normalise (p : Potential K) : Res (Potential K) := do
  let d ← normaliseArray p.data 0 p.size
  ok { p with data := d }

/-- The loop `for(i = 0; i < size; i += n)` of `nip_normalise_cpd`.  `fuel` bounds the number of iterations; running
out of it (only possible when `n = 0 < size`, an endless loop) is reported as undefined behaviour. -/
def cpdLoop (n size : Nat) : (fuel i : Nat) → List K → Res (List K)
  | 0, i, d => if i < size then ub else ok d
  | fuel + 1, i, d =>
    if i < size then (normaliseArray d i n).bind (cpdLoop n size fuel (i + n)) else ok d

/-- `nip_normalise_cpd`, `src/nippotential.c:367-377`.  For dimensionality zero `cardinality[0]` is 1 (126-128). -/
def normaliseCpd (p : Potential K) : Res (Potential K) := do
  let n := match p.card with
    | [] => 1
    | c :: _ => c
  let d ← cpdLoop n p.size p.size 0 p.data
  ok { p with data := d }

/-- `nip_sum_potential`, `src/nippotential.c:401-416` (null pointers not modelled). -/
def sumInto (sum increment : Potential K) : Res (Nat × Potential K) :=
  if sum.size ≠ increment.size then ok (EINVAL, sum)
  else do
    let d ← loop sum.size (fun i (d : List K) => do
      let a ← rd d i
      let b ← rd increment.data i
      wr d i (a + b)) sum.data
    ok (0, { sum with data := d })

/-- Division as in `nip_update_potential`, `src/nippotential.c:447-452` and `469-475`: `x / 0` is `0`. -/
def divZero (a b : K) : K := if b ≠ 0 then a / b else 0

/-- `nip_update_potential`, `src/nippotential.c:419-479`; `none` is the null pointer. -/
def update (numerator denominator : Option (Potential K)) (target : Potential K) (mapping : List Nat) :
    Res (Nat × Potential K) :=
  let bad : Bool := match numerator, denominator with
    | some n, some d => n.dim != d.dim || decide (n.dim > target.dim)
    | none, none => true
    | _, _ => false
  if bad then ok (EINVAL, target)
  else
    let nvars := match numerator, denominator with
      | some n, _ => n.dim
      | none, some d => d.dim
      | none, none => 0
    if nvars = 0 then do
      let t ← loop target.size (fun i (t : List K) => do
        let t ← match numerator with
          | some n => do
            let a ← rd t i
            let b ← rd n.data 0
            wr t i (a * b)
          | none => ok t
        match denominator with
        | some d => do
          let a ← rd t i
          let b ← rd d.data 0
          wr t i (divZero a b)
        | none => ok t) target.data
      ok (0, { target with data := t })
    else do
      let t ← loop target.size (fun i (t : List K) => do
        let idx ← target.indicesOf i
        let sidx ← choose idx mapping nvars
        let t ← match numerator with
          | some n => do
            let k ← pointer n.card sidx
            let a ← rd t i
            let b ← rd n.data k
            wr t i (a * b)
          | none => ok t
        match denominator with
        | some d => do
          let k ← pointer d.card sidx
          let a ← rd t i
          let b ← rd d.data k
          wr t i (divZero a b)
        | none => ok t) target.data
      ok (0, { target with data := t })

/-- `nip_normalise_dimension`, `src/nippotential.c:381-398`. -/
def normaliseDimension (p : Potential K) (dimension : Int) : Res (Nat × Potential K) :=
  if dimension < 0 ∨ dimension ≥ (p.dim : Int) then ok (EINVAL, p)
  else do
    let k := dimension.toNat
    let c ← rd p.card k
    let denom ← new [c] 1 none
    match denom with
    | none => ok (0, p) -- not reached: the dimensionality given is 1
    | some denom => do
      let r ← generalMarginalise p denom [k]
      let t ← update none (some r.2) p [k]
      ok (0, t.2)

/-- `nip_update_evidence`, `src/nippotential.c:482-504`. -/
def updateEvidence (numerator : List K) (denominator : Option (List K)) (target : Potential K) (var : Nat) :
    Res (Potential K) := do
  let t ← loop target.size (fun i (t : List K) => do
    let idx ← target.indicesOf i
    let s ← rd idx var
    let a ← rd t i
    let n ← rd numerator s
    let t ← wr t i (a * n)
    match denominator with
    | some den => do
      let d ← rd den s
      if d ≠ 0 then do
        let a ← rd t i
        wr t i (a / d)
      else ok t
    | none => ok t) target.data
  ok { target with data := t }

/-- `nip_init_potential`, `src/nippotential.c:507-544`; `mapping = none` is the null pointer. -/
def init (probs target : Potential K) (mapping : Option (List Nat)) : Res (Nat × Potential K) :=
  match mapping with
  | none =>
    if probs.size ≠ target.size then ok (EFAULT, target)
    else do
      let t ← loop target.size (fun i (t : List K) => do
        let a ← rd t i
        let b ← rd probs.data i
        wr t i (a * b)) target.data
      ok (0, { target with data := t })
  | some mapping =>
    if probs.dim = 0 then ok (0, target)
    else do
      let t ← loop target.size (fun i (t : List K) => do
        let idx ← target.indicesOf i
        let sidx ← choose idx mapping probs.dim
        let k ← pointer probs.card sidx
        let a ← rd t i
        let b ← rd probs.data k
        wr t i (a * b)) target.data
      ok (0, { target with data := t })

end Potential
end Nip
