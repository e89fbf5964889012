import Verif.Build
import Verif.Series

/-!
# Model of the inference over time of `src/nip.c`

The parts of a model that are about time are in `Interface`; they never change.  Files of the NET format may have a field `NIP_next`, which
gives the variable that stands for the same thing in the next time slice (`NetFile.next`).
-/

namespace Nip

open Res Spec

variable {K : Type} [Zero K] [One K] [Add K] [Sub K] [Mul K] [Div K] [LinearOrder K]

/-- The fields `previous_outgoing_interface`, `outgoing_interface`, `in_clique` and `out_clique` of `nip_model_struct`
(`src/nip.h:71-104`).  The size of both arrays is `outgoing_interface_size`. -/
structure Interface where
  prev : List Nat
  out : List Nat
  inClique : Option Nat
  outClique : Option Nat
deriving Repr, DecidableEq

namespace NetFile

/-- The loops of `parse_model` that fill the arrays of the interface, `src/nip.c:150-187` and `src/nip.c:213-235`.  The arrays have as many
places as there are variables with the bit `OUTGOING`.  Failed assertions are undefined behaviour. -/
def interfaceArrays (f : NetFile K) (m : Model K) : Res (List Nat × List Nat) := do
  let n := (m.varList.filter (fun v => (m.var v).outgoing)).length
  let (k, prev, out) ← loop m.varList.length (fun i (st : Nat × List Nat × List Nat) => do
    let v ← rd m.varList i
    if (m.var v).oldOutgoing then
      match f.next v with
      | none => ub
      | some u => do
        let prev ← wr st.2.1 st.1 v
        let out ← wr st.2.2 st.1 u
        if (m.var u).outgoing then ok (st.1 + 1, prev, out) else ub
    else ok st) (0, List.replicate n 0, List.replicate n 0)
  if k = n then ok (prev, out) else ub

/-- The end of `parse_model`, `src/nip.c:246-261`. -/
def interface (f : NetFile K) (m : Model K) : Res Interface := do
  let (prev, out) ← interfaceArrays f m
  if 0 < out.length then do
    let i ← m.tree.findClique prev
    let o ← m.tree.findClique out
    match i, o with
    | some i, some o => ok { prev := prev, out := out, inClique := some i, outClique := some o }
    | _, _ => ub
  else ok { prev := prev, out := out, inClique := none, outClique := none }

/-- `parse_model`, `src/nip.c:118-290`; `none` is the null pointer. -/
def parseModel (ptr : Nat) (f : NetFile K) : Res (Option (Model K × Interface)) := do
  let r ← build ptr f
  match r with
  | none => ok none
  | some m => do
    let s ← interface f m
    ok (some (m, s))

end NetFile

/-- `insert_ts_step`, `src/nip.c:1009-1029`; `marked` tells which variables have the mark asked for.  Codes returned by
`nip_enter_index_observation` are dropped. -/
def insertStep (marked : Nat → Bool) (ts : TimeSeries) (t : Int) (m : Model K) : Res (Nat × Model K) :=
  if t < 0 ∨ (ts.length : Int) ≤ t then ok (EINVAL, m)
  else do
    let m ← loop ((ts.numVars : Int) - ts.numHidden).toNat (fun i (m : Model K) => do
      let v ← rd ts.observed i
      if marked v then do
        let row ← rd ts.data t.toNat
        let d ← rd row i
        if 0 ≤ d then do
          let r ← m.enterIndexObservation v d
          ok r.2
        else ok m
      else ok m) m
    ok (0, m)

/-- `start_timeslice_message_pass`, `src/nip.c:1058-1093`: the new contents of `alpha_or_gamma`. -/
def startPass (s : Interface) (forward : Bool) (m : Model K) (a : Potential K) : Res (Potential K) :=
  if s.out.length = 0 then ok (a.uniform 1)
  else
    match (if forward then s.outClique else s.inClique) with
    | none => ub
    | some c => do
      let cl ← rd m.tree.cliques c
      let (_, mapping) ← mapper cl.vars (if forward then s.out else s.prev)
      let (_, a) ← Potential.generalMarginalise cl.p a (mapping.getD [])
      a.normalise

/-- `finish_timeslice_message_pass`, `src/nip.c:1096-1125`. -/
def finishPass (s : Interface) (forward : Bool) (m : Model K) (num : Potential K) (den : Option (Potential K)) : Res (Model K) :=
  if s.out.length = 0 then ok m
  else
    match (if forward then s.inClique else s.outClique) with
    | none => ub
    | some c => do
      let cl ← rd m.tree.cliques c
      let (_, mapping) ← mapper cl.vars (if forward then s.prev else s.out)
      let (_, p) ← Potential.update (some num) den cl.p (mapping.getD [])
      let cs ← wr m.tree.cliques c { cl with p := p }
      ok { m with tree := { m.tree with cliques := cs } }

/-- What `forward_inference` needs of the C library when asked for the likelihood: the function `log` and the number `-DBL_MAX`. -/
structure Logs (K : Type) where
  log : K → K
  lowest : K

/-- The law of logarithms. -/
def Logs.Law (g : Logs K) : Prop := ∀ a b, 0 < a → 0 < b → g.log a - g.log b = g.log (a / b)

/-- The part of a round that enters the data of a time slice, `src/nip.c:1256-1282` (and `src/nip.c:1468-1494`).  With `lg = none` the
likelihood is not asked for.  A failed assertion is undefined behaviour. -/
def absorb (lg : Option (Logs K)) (marked : Nat → Bool) (ts : TimeSeries) (t : Nat) (st : Model K × K) : Res (Model K × K) := do
  match lg with
  | none => do
    let (_, m) ← insertStep marked ts (t : Int) st.1
    let m ← m.makeConsistent
    ok (m, st.2)
  | some g => do
    let m ← st.1.makeConsistent
    let (m1, m) ← m.probMass
    let (_, m) ← insertStep marked ts (t : Int) m
    let m ← m.makeConsistent
    let (m2, m) ← m.probMass
    let ll := if 0 < m1 ∧ 0 < m2 then st.2 + (g.log m2 - g.log m1) else st.2
    if 0 ≤ m2 then ok (m, if m2 = 0 then g.lowest else ll) else ub

/-- The result written for one variable, `src/nip.c:1296-1312` (and `src/nip.c:1553-1570`).  A failed assertion is undefined behaviour. -/
def posterior (m : Model K) (v : Nat) : Res (List K × Model K) := do
  let (c, m) ← m.findFamily v
  match c with
  | none => ub
  | some c => do
    let (_, r) ← m.tree.marginaliseClique c v (List.replicate (m.var v).card 0)
    let r ← Potential.normaliseArray r 0 (m.var v).card
    ok (r, m)

/-- The results written for one time slice, the loop around `posterior`. -/
def posteriors (vars : List Nat) (m : Model K) : Res (List (List K) × Model K) :=
  vars.foldlM (fun (st : List (List K) × Model K) v => do
    let (r, m) ← posterior st.2 v
    ok (st.1 ++ [r], m)) ([], m)

/-- `nip_new_potential(cardinalities, outgoing_interface_size, NULL)` as called in `src/nip.c:1141-1152`, `src/nip.c:1225`. -/
def newMessage (s : Interface) (m : Model K) : Res (Potential K) := do
  let p ← Potential.new (s.out.map (fun v => (m.var v).card)) (s.out.length : Int) none
  match p with
  | some p => ok p
  | none => ub

/-- The variables of the loop of `forward_inference`. -/
structure Filter (K : Type) where
  model : Model K
  alpha : Potential K
  results : List (List (List K))
  ll : K

/-- The message from the slice before, `src/nip.c:1246-1254`. -/
def arriveForward (s : Interface) (t : Nat) (m : Model K) (alpha : Potential K) : Res (Model K) :=
  if 0 < t then finishPass s true m alpha none else ok m

/-- One round of `forward_inference`, `src/nip.c:1236-1333`. -/
def forwardStep (lg : Option (Logs K)) (s : Interface) (marked : Nat → Bool) (ts : TimeSeries) (vars : List Nat) (t : Nat)
    (st : Filter K) : Res (Filter K) := do
  let m ← arriveForward s t st.model st.alpha
  let (m, ll) ← absorb lg marked ts t (m, st.ll)
  let (row, m) ← posteriors vars m
  let alpha ← startPass s true m st.alpha
  let m ← m.reset
  let m ← m.usePriors true
  ok { model := m, alpha := alpha, results := st.results ++ [row], ll := ll }

/-- `forward_inference`, `src/nip.c:1130-1337`: the results, the log likelihood and the model.  Memory is always available.  The array of
results is built up row by row. -/
def forwardInference (lg : Option (Logs K)) (s : Interface) (marked : Nat → Bool) (ts : TimeSeries) (vars : List Nat) (m : Model K) :
    Res (List (List (List K)) × K × Model K) := do
  let alpha ← newMessage s m
  let m ← m.reset
  let m ← m.usePriors false
  let st ← loop ts.length (forwardStep lg s marked ts vars) { model := m, alpha := alpha, results := [], ll := 0 }
  ok (st.results, st.ll, st.model)

/-- The variables of the loops of `forward_backward_inference`. -/
structure Smoother (K : Type) where
  model : Model K
  messages : List (Potential K)
  ll : K

/-- The message from the slice before, `src/nip.c:1457-1466` and `src/nip.c:1519-1530`. -/
def arriveStored (s : Interface) (t : Nat) (m : Model K) (messages : List (Potential K)) : Res (Model K) :=
  if 0 < t then do
    let a ← rd messages (t - 1)
    finishPass s true m a none
  else ok m

/-- The message from the slice after, `src/nip.c:1535-1547`. -/
def arriveBackward (s : Interface) (t length : Nat) (m : Model K) (messages : List (Potential K)) : Res (Model K) :=
  if t + 1 < length then do
    let c ← rd messages (t + 1)
    let a ← rd messages t
    finishPass s false m c (some a)
  else ok m

/-- The message to the slice before, `src/nip.c:1573-1583`. -/
def departBackward (s : Interface) (t : Nat) (m : Model K) (messages : List (Potential K)) : Res (List (Potential K)) :=
  if 0 < t then do
    let a ← rd messages t
    let a ← startPass s false m a
    wr messages t a
  else ok messages

/-- One round of the forward phase of `forward_backward_inference`, `src/nip.c:1456-1513`. -/
def smoothForward (lg : Option (Logs K)) (s : Interface) (marked : Nat → Bool) (ts : TimeSeries) (t : Nat) (st : Smoother K) :
    Res (Smoother K) := do
  let m ← arriveStored s t st.model st.messages
  let (m, ll) ← absorb lg marked ts t (m, st.ll)
  let a ← rd st.messages t
  let a ← startPass s true m a
  let messages ← wr st.messages t a
  let m ← m.reset
  let m ← m.usePriors (decide (1 < ts.length))
  ok { model := m, messages := messages, ll := ll }

/-- The inference of one round of the backward phase, `src/nip.c:1518-1550`. -/
def smoothAbsorb (s : Interface) (marked : Nat → Bool) (ts : TimeSeries) (t : Nat) (m : Model K) (messages : List (Potential K)) :
    Res (Model K) := do
  let m ← arriveStored s t m messages
  let (_, m) ← insertStep marked ts (t : Int) m
  let m ← arriveBackward s t ts.length m messages
  m.makeConsistent

/-- The end of one round of the backward phase, `src/nip.c:1573-1590`. -/
def smoothLeave (s : Interface) (t : Nat) (m : Model K) (messages : List (Potential K)) : Res (Model K × List (Potential K)) := do
  let messages ← departBackward s t m messages
  let m ← m.reset
  let m ← m.usePriors (decide (1 < t))
  ok (m, messages)

/-- One round of the backward phase of `forward_backward_inference`, `src/nip.c:1518-1591`. -/
def smoothBackward (s : Interface) (marked : Nat → Bool) (ts : TimeSeries) (vars : List Nat) (t : Nat)
    (st : Model K × List (Potential K) × List (List (List K))) : Res (Model K × List (Potential K) × List (List (List K))) := do
  let m ← smoothAbsorb s marked ts t st.1 st.2.1
  let (row, m) ← posteriors vars m
  let results ← wr st.2.2 t row
  let (m, messages) ← smoothLeave s t m st.2.1
  ok (m, messages, results)

/-- The `ts->length + 1` messages of `src/nip.c:1437-1445`. -/
def newMessages (s : Interface) (m : Model K) (n : Nat) : Res (List (Potential K)) := do
  let p ← newMessage s m
  ok (List.replicate (n + 1) p)

/-- `forward_backward_inference`, `src/nip.c:1342-1599`: the results, the log likelihood and the model.  Memory is always available. -/
def forwardBackward (lg : Option (Logs K)) (s : Interface) (marked : Nat → Bool) (ts : TimeSeries) (vars : List Nat) (m : Model K) :
    Res (List (List (List K)) × K × Model K) := do
  let messages ← newMessages s m ts.length
  let m ← m.reset
  let m ← m.usePriors false
  let st ← loop ts.length (smoothForward lg s marked ts) { model := m, messages := messages, ll := 0 }
  let blank := vars.map (fun v => List.replicate (m.var v).card (0 : K))
  let (m, _, results) ← loopDown ts.length (smoothBackward s marked ts vars) (st.model, st.messages, List.replicate ts.length blank)
  ok (results, st.ll, m)

end Nip
