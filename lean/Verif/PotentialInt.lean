import Verif.Potential

/-!
# Model of `src/nippotential.c`: integer arithmetic

The functions of `Verif/Potential.lean` that multiply or add integers, again, now with `int` as it is: a product or a sum larger than the
largest `int` is undefined behaviour.  `M` is the largest `int` (`INT_MAX`).  All integers here are at least zero: cardinalities, indices and sizes
are, and `flat_index -= index * x` subtracts at most `flat_index`, for `index` is `flat_index / x`.  The counters of loops
`for(i = 0; i < n; i++)` end at `n`, which is an `int`.
-/

namespace Nip

open Res

/-- `a * b` for `int`. -/
def mulInt (M a b : Nat) : Res Nat := if a * b ≤ M then ok (a * b) else ub

/-- `a + b` for `int`. -/
def addInt (M a b : Nat) : Res Nat := if a + b ≤ M then ok (a + b) else ub

namespace Potential

variable {K : Type} [Zero K] [One K] [Add K] [Sub K] [Mul K] [Div K] [LinearOrder K]

/-- `nip_get_potential_pointer`, `src/nippotential.c:58-68`. -/
def pointerInt (M : Nat) (card indices : List Nat) : Res Nat := do
  let r ← loop card.length (fun i (st : Nat × Nat) => do
    let x ← rd indices i
    let y ← mulInt M x st.2
    let index ← addInt M st.1 y
    let c ← rd card i
    let cardTemp ← mulInt M st.2 c
    ok (index, cardTemp)) (0, 1)
  ok r.1

/-- The size computed in `nip_new_potential`, `src/nippotential.c:121-125`. -/
def sizeOfInt (M : Nat) (card : List Nat) (dimensionality : Nat) : Res Nat :=
  loop dimensionality (fun i d => do
    let c ← rd card i
    mulInt M d c) 1

/-- `nip_new_potential`, `src/nippotential.c:84-150`, as `Potential.new`. -/
def newInt (M : Nat) (card : List Nat) (dimensionality : Int) (data : Option (List K)) : Res (Option (Potential K)) :=
  if dimensionality < 0 then ok none
  else do
    let d := dimensionality.toNat
    let dsize ← sizeOfInt M card d
    match data with
    | none => ok (some { card := card.take d, data := List.replicate dsize 1 })
    | some a => do
      let cells ← loop dsize (fun i (acc : List K) => do
        let v ← rd a i
        ok (acc ++ [v])) []
      ok (some { card := card.take d, data := cells })

/-- `nip_get_potential_value`, `src/nippotential.c:233-240`. -/
def getValueInt (M : Nat) (p : Potential K) (indices : List Nat) : Res K := do
  let k ← pointerInt M p.card indices
  rd p.data k

/-- `nip_set_potential_value`, `src/nippotential.c:243-248`. -/
def setValueInt (M : Nat) (p : Potential K) (indices : List Nat) (value : K) : Res (Potential K) := do
  let k ← pointerInt M p.card indices
  let d ← wr p.data k value
  ok { p with data := d }

/-- `nip_inverse_mapping`, `src/nippotential.c:251-264`. -/
def inverseMappingInt (M : Nat) (card : List Nat) (size flat : Nat) (indices : List Nat) : Res (List Nat) := do
  let r ← loopDown card.length (fun i (st : Nat × Nat × List Nat) => do
    let c ← rd card i
    let x ← divC st.1 c
    let q ← divC st.2.1 x
    let ind ← wr st.2.2 i q
    let y ← mulInt M q x
    ok (x, st.2.1 - y, ind)) (size, flat, indices)
  ok r.2.2

/-- `nip_inverse_mapping(p, flat, p->temp_index)`. -/
def indicesOfInt (M : Nat) (p : Potential K) (flat : Nat) : Res (List Nat) :=
  inverseMappingInt M p.card p.size flat (List.replicate p.dim 0)

/-- `nip_general_marginalise`, `src/nippotential.c:267-306`. -/
def generalMarginaliseInt (M : Nat) (source destination : Potential K) (mapping : List Nat) :
    Res (Nat × Potential K) :=
  if destination.dim > source.dim then ok (EINVAL, destination)
  else if destination.dim = 0 then do
    let d0 ← wr destination.data 0 0
    let d ← loop source.size (fun i (d : List K) => do
      let a ← rd d 0
      let s ← rd source.data i
      wr d 0 (a + s)) d0
    ok (0, { destination with data := d })
  else do
    let d ← loop source.size (fun i (d : List K) => do
      let idx ← source.indicesOfInt M i
      let didx ← choose idx mapping destination.dim
      let k ← pointerInt M destination.card didx
      let a ← rd d k
      let s ← rd source.data i
      wr d k (a + s)) (destination.uniform 0).data
    ok (0, { destination with data := d })

/-- The partial inverse mapping in `nip_total_marginalise`, `src/nippotential.c:329-335`. -/
def partialIndexInt (M : Nat) (card : List Nat) (size flat var : Nat) : Res Nat := do
  let r ← loopDown (card.length - var) (fun j (st : Nat × Nat × Nat) => do
    let c ← rd card (var + j)
    let x ← divC st.1 c
    let q ← divC st.2.1 x
    let y ← mulInt M q x
    ok (x, st.2.1 - y, q)) (size, flat, 0)
  ok r.2.2

/-- `nip_total_marginalise`, `src/nippotential.c:309-340`. -/
def totalMarginaliseInt (M : Nat) (source : Potential K) (destination : List K) (var : Int) :
    Res (Nat × List K) :=
  if var < 0 ∨ var ≥ (source.dim : Int) then ok (EINVAL, destination)
  else do
    let v := var.toNat
    let c ← rd source.card v
    let d0 ← loop c (fun i (d : List K) => wr d i 0) destination
    let d ← loop source.size (fun i (d : List K) => do
      let index ← partialIndexInt M source.card source.size i v
      let a ← rd d index
      let s ← rd source.data i
      wr d index (a + s)) d0
    ok (0, d)

/-- The loop `for(i = 0; i < size; i += n)` of `nip_normalise_cpd`, as `Potential.cpdLoop`. -/
def cpdLoopInt (M n size : Nat) : (fuel i : Nat) → List K → Res (List K)
  | 0, i, d => if i < size then ub else ok d
  | fuel + 1, i, d =>
    if i < size then do
      let d ← normaliseArray d i n
      let i ← addInt M i n
      cpdLoopInt M n size fuel i d
    else ok d

/-- `nip_normalise_cpd`, `src/nippotential.c:367-377`. -/
def normaliseCpdInt (M : Nat) (p : Potential K) : Res (Potential K) := do
  let n := match p.card with
    | [] => 1
    | c :: _ => c
  let d ← cpdLoopInt M n p.size p.size 0 p.data
  ok { p with data := d }

/-- `nip_update_potential`, `src/nippotential.c:419-479`; `none` is the null pointer. -/
def updateInt (M : Nat) (numerator denominator : Option (Potential K)) (target : Potential K) (mapping : List Nat) :
    Res (Nat × Potential K) :=
  let bad : Bool := match numerator, denominator with
    | some n, some d => n.dim != d.dim || decide (n.dim > target.dim)
    | none, none => true
    | _, _ => false
  if bad then ok (EINVAL, target)
  else
    let nvars := match numerator, denominator with
      | some n, _ => n.dim
      | none, some d => d.dim
      | none, none => 0
    if nvars = 0 then do
      let t ← loop target.size (fun i (t : List K) => do
        let t ← match numerator with
          | some n => do
            let a ← rd t i
            let b ← rd n.data 0
            wr t i (a * b)
          | none => ok t
        match denominator with
        | some d => do
          let a ← rd t i
          let b ← rd d.data 0
          wr t i (divZero a b)
        | none => ok t) target.data
      ok (0, { target with data := t })
    else do
      let t ← loop target.size (fun i (t : List K) => do
        let idx ← target.indicesOfInt M i
        let sidx ← choose idx mapping nvars
        let t ← match numerator with
          | some n => do
            let k ← pointerInt M n.card sidx
            let a ← rd t i
            let b ← rd n.data k
            wr t i (a * b)
          | none => ok t
        match denominator with
        | some d => do
          let k ← pointerInt M d.card sidx
          let a ← rd t i
          let b ← rd d.data k
          wr t i (divZero a b)
        | none => ok t) target.data
      ok (0, { target with data := t })

/-- `nip_normalise_dimension`, `src/nippotential.c:381-398`. -/
def normaliseDimensionInt (M : Nat) (p : Potential K) (dimension : Int) : Res (Nat × Potential K) :=
  if dimension < 0 ∨ dimension ≥ (p.dim : Int) then ok (EINVAL, p)
  else do
    let k := dimension.toNat
    let c ← rd p.card k
    let denom ← newInt M [c] 1 none
    match denom with
    | none => ok (0, p) -- not reached: the dimensionality given is 1
    | some denom => do
      let r ← generalMarginaliseInt M p denom [k]
      let t ← updateInt M none (some r.2) p [k]
      ok (0, t.2)

/-- `nip_update_evidence`, `src/nippotential.c:482-504`. -/
def updateEvidenceInt (M : Nat) (numerator : List K) (denominator : Option (List K)) (target : Potential K) (var : Nat) :
    Res (Potential K) := do
  let t ← loop target.size (fun i (t : List K) => do
    let idx ← target.indicesOfInt M i
    let s ← rd idx var
    let a ← rd t i
    let n ← rd numerator s
    let t ← wr t i (a * n)
    match denominator with
    | some den => do
      let d ← rd den s
      if d ≠ 0 then do
        let a ← rd t i
        wr t i (a / d)
      else ok t
    | none => ok t) target.data
  ok { target with data := t }

/-- `nip_init_potential`, `src/nippotential.c:507-544`; `mapping = none` is the null pointer. -/
def initInt (M : Nat) (probs target : Potential K) (mapping : Option (List Nat)) : Res (Nat × Potential K) :=
  match mapping with
  | none =>
    if probs.size ≠ target.size then ok (EFAULT, target)
    else do
      let t ← loop target.size (fun i (t : List K) => do
        let a ← rd t i
        let b ← rd probs.data i
        wr t i (a * b)) target.data
      ok (0, { target with data := t })
  | some mapping =>
    if probs.dim = 0 then ok (0, target)
    else do
      let t ← loop target.size (fun i (t : List K) => do
        let idx ← target.indicesOfInt M i
        let sidx ← choose idx mapping probs.dim
        let k ← pointerInt M probs.card sidx
        let a ← rd t i
        let b ← rd probs.data k
        wr t i (a * b)) target.data
      ok (0, { target with data := t })

end Potential
end Nip
