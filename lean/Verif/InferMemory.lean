import Verif.JoinTree

/-!
# Model of the inference code when memory runs out

`nip_mapper`, `nip_message_pass`, `nip_collect_evidence`, `nip_distribute_evidence`, `make_consistent`, `nip_find_family` and `get_probability` with an
oracle: `fails i` says that request number `i` for memory is refused.  What is written to the arrays is as in `JoinTree.lean` and `Potential.lean`.
Error messages are left out.
-/

namespace Nip

open Res

/-- what the run has asked for: the number of requests so far, and the number of blocks that were not given back -/
structure Loans where
  tried : Nat
  held : Nat
deriving DecidableEq, Repr

namespace Loans

/-- `calloc`: is it NULL? -/
def calloc (fails : Nat → Bool) (w : Loans) : Bool × Loans :=
  if fails w.tried then (true, { w with tried := w.tried + 1 }) else (false, { tried := w.tried + 1, held := w.held + 1 })

/-- `free`, which does nothing for NULL -/
def free {α : Type} (w : Loans) : Option α → Loans
  | some _ => { w with held := w.held - 1 }
  | none => w

end Loans

/-- `nip_mapper`, `src/nipvariable.c:560-589`; `none` is the null pointer.  The arrays of variables are not NULL. -/
def mapperIn (fails : Nat → Bool) (w : Loans) (set subset : List Nat) : Res (Option (List Nat) × Loans) :=
  if subset.length < 1 then ok (none, w)
  else if ¬ (set.length ≥ subset.length) then ok (none, w)
  else
    let (null, w) := w.calloc fails
    if null then ok (none, w)
    else do
      let m ← loop subset.length (mapperStep set subset) (List.replicate subset.length 0)
      ok (some m, w)

variable {K : Type} [Zero K] [One K] [Add K] [_root_.Sub K] [Mul K] [Div K] [LinearOrder K]

namespace JTree

/-- `nip_message_pass`, `src/nipjointree.c:645-678`.  The mapping is not checked: reading an element of a mapping that is NULL
(`nip_choose_potential_indices`, `src/nippotential.c:72-81`) is reading beyond the end of an empty array. -/
def messagePassIn (fails : Nat → Bool) (t : JTree K) (w : Loans) (c1 s c2 : Nat) : Res ((Nat × JTree K) × Loans) := do
  let sp ← rd t.sepsets s
  let cl1 ← rd t.cliques c1
  let sp := { sp with old := sp.new, new := sp.old }
  let (m1, w) ← mapperIn fails w cl1.vars sp.vars
  let (e, n) ← Potential.generalMarginalise cl1.p sp.new (m1.getD [])
  let w := w.free m1
  let sp := { sp with new := n }
  let ss ← wr t.sepsets s sp
  let t := { t with sepsets := ss }
  if e ≠ 0 then ok ((e, t), w)
  else do
    let cl2 ← rd t.cliques c2
    let (m2, w) ← mapperIn fails w cl2.vars sp.vars
    let (e, p) ← Potential.update (some sp.new) (some sp.old) cl2.p (m2.getD [])
    let w := w.free m2
    let cs ← wr t.cliques c2 { cl2 with p := p }
    ok ((e, { t with cliques := cs }), w)

/-- `nip_distribute_evidence`, `src/nipjointree.c:549-596`. -/
def distributeIn (fails : Nat → Bool) : (fuel : Nat) → JTree K → Loans → (c : Nat) → Res ((Nat × JTree K) × Loans)
  | 0, _, _, _ => ub
  | fuel + 1, t, w, c => do
    let cl ← rd t.cliques c
    let t ← t.setMark c true
    let st ← cl.sepsets.foldlM (fun (st : (Nat × JTree K) × Loans) s => do
      if st.1.1 ≠ 0 then ok st
      else do
        let n ← st.1.2.next s
        match n with
        | some d => st.1.2.messagePassIn fails st.2 c s d
        | none => ok st) ((0, t), w)
    cl.sepsets.foldlM (fun (st : (Nat × JTree K) × Loans) s => do
      if st.1.1 ≠ 0 then ok st
      else do
        let n ← st.1.2.next s
        match n with
        | some d => distributeIn fails fuel st.1.2 st.2 d
        | none => ok st) st

/-- `nip_collect_evidence`, `src/nipjointree.c:599-642`. -/
def collectIn (fails : Nat → Bool) : (fuel : Nat) → JTree K → Loans → (c1 s12 : Option Nat) → (c2 : Nat) → Res ((Nat × JTree K) × Loans)
  | 0, _, _, _, _, _ => ub
  | fuel + 1, t, w, c1, s12, c2 => do
    let cl ← rd t.cliques c2
    let t ← t.setMark c2 true
    let st ← cl.sepsets.foldlM (fun (st : (Nat × JTree K) × Loans) s => do
      if st.1.1 ≠ 0 then ok st
      else do
        let sp ← rd st.1.2.sepsets s
        let m1 ← st.1.2.marked sp.first
        let st ← (if !m1 then collectIn fails fuel st.1.2 st.2 (some c2) (some s) sp.first else ok st)
        if st.1.1 ≠ 0 then ok st
        else do
          let m2 ← st.1.2.marked sp.second
          if !m2 then collectIn fails fuel st.1.2 st.2 (some c2) (some s) sp.second else ok st) ((0, t), w)
    if st.1.1 ≠ 0 then ok st
    else
      match c1, s12 with
      | some c1, some s12 => st.1.2.messagePassIn fails st.2 c2 s12 c1
      | _, _ => ok st

end JTree

namespace Model

/-- `make_consistent`, `src/nip.c:1618-1635`. -/
def makeConsistentIn (fails : Nat → Bool) (m : Model K) (w : Loans) : Res (Model K × Loans) := do
  let t ← m.tree.unmarkAll
  let ((e, t), w) ← t.collectIn fails (t.cliques.length + 1) w none none 0
  if e ≠ 0 then ok ({ m with tree := t }, w)
  else do
    let t ← t.unmarkAll
    let ((_, t), w) ← t.distributeIn fails (t.cliques.length + 1) w 0
    ok ({ m with tree := t }, w)

/-- `nip_find_family`, `src/nipjointree.c:936-960`. -/
def findFamilyIn (fails : Nat → Bool) (m : Model K) (w : Loans) (v : Nat) : Res ((Option Nat × Model K) × Loans) :=
  match (m.var v).familyClique with
  | some c => ok ((some c, m), w)
  | none =>
    let (null, w) := w.calloc fails
    if null then ok ((none, m), w)
    else do
      let family := (m.var v).parents ++ [v]
      let found ← m.tree.findClique family
      ok ((found, m.setVar v { m.var v with familyClique := found }), w.free (some family))

/-- `get_probability`, `src/nip.c:2283-2320`, for a model and a variable that are not NULL. -/
def getProbabilityIn (fails : Nat → Bool) (m : Model K) (w : Loans) (v : Nat) : Res ((Option (List K) × Model K) × Loans) :=
  let (null, w) := w.calloc fails
  if null then ok ((none, m), w)
  else do
    let result := List.replicate (m.var v).card (0 : K)
    let ((c, m), w) ← m.findFamilyIn fails w v
    match c with
    | none => ok ((none, m), w.free (some result))
    | some c => do
      let (_, r) ← m.tree.marginaliseClique c v result
      let r ← Potential.normaliseArray r 0 (m.var v).card
      ok ((some r, m), w)

end Model

end Nip
