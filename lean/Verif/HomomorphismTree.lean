import Verif.Homomorphism
import Verif.History

/-!
# Homomorphisms between arithmetics: clique trees and models

The functions of `Verif/JoinTree.lean` commute with a homomorphism, except those that subtract (`nip_neg_sepset_mass` and its callers).
-/

namespace Nip

open Res Spec

set_option linter.unusedSectionVars false

variable {K L : Type} [Zero K] [One K] [Add K] [_root_.Sub K] [Mul K] [Div K] [LinearOrder K] [Zero L] [One L] [Add L] [_root_.Sub L] [Mul L] [Div L] [LinearOrder L]

def Clique.on (φ : K → L) (c : Clique K) : Clique L := { vars := c.vars, p := c.p.on φ, orig := c.orig.on φ, sepsets := c.sepsets, mark := c.mark }

def Sepset.on (φ : K → L) (s : Sepset K) : Sepset L := { vars := s.vars, old := s.old.on φ, new := s.new.on φ, first := s.first, second := s.second }

def JTree.on (φ : K → L) (t : JTree K) : JTree L := { cliques := t.cliques.map (Clique.on φ), sepsets := t.sepsets.map (Sepset.on φ) }

def VarRec.on (φ : K → L) (r : VarRec K) : VarRec L :=
  { card := r.card, parents := r.parents, likelihood := r.likelihood.map φ, prior := r.prior.map (List.map φ), priorEntered := r.priorEntered,
    familyClique := r.familyClique, oldOutgoing := r.oldOutgoing, outgoing := r.outgoing }

def Model.on (φ : K → L) (m : Model K) : Model L :=
  { tree := m.tree.on φ, var := fun v => (m.var v).on φ, varList := m.varList, independent := m.independent }

variable {φ : K → L}

namespace JTree

theorem on_setMark (t : JTree K) (c : Nat) (b : Bool) : (t.on φ).setMark c b = (t.setMark c b).on (JTree.on φ) := by
  unfold setMark
  exact on_bind (on_rd _ _ _) fun cl => on_bind (on_wr (Clique.on φ) t.cliques c { cl with mark := b }) fun cs => rfl

theorem on_marked (t : JTree K) (c : Nat) : (t.on φ).marked c = t.marked c := by
  unfold marked
  rw [show (t.on φ).cliques = t.cliques.map (Clique.on φ) from rfl, on_rd]
  cases rd t.cliques c <;> rfl

@[simp] theorem on_length (t : JTree K) : (t.on φ).cliques.length = t.cliques.length := by simp [JTree.on]

theorem on_unmarkAll (t : JTree K) : (t.on φ).unmarkAll = t.unmarkAll.on (JTree.on φ) := by
  unfold unmarkAll
  rw [on_length]
  exact on_loop rfl fun i t => on_setMark _ _ _

theorem on_confirm (t : JTree K) (s : Sepset K) : (t.on φ).confirm (s.on φ) = (t.confirm s).on (JTree.on φ) := by
  unfold confirm
  have hl : (t.on φ).sepsets.length = t.sepsets.length := by simp [JTree.on]
  simp only [hl]
  refine on_bind (on_rd _ _ _) fun c1 => ?_
  refine on_bind (on_wr (Clique.on φ) t.cliques s.first { c1 with sepsets := t.sepsets.length :: c1.sepsets }) fun cs => ?_
  refine on_bind (on_rd _ _ _) fun c2 => ?_
  refine on_bind (on_wr (Clique.on φ) cs s.second { c2 with sepsets := t.sepsets.length :: c2.sepsets }) fun cs => ?_
  simp [JTree.on]

theorem on_next (t : JTree K) (s : Nat) : (t.on φ).next s = t.next s := by
  unfold next
  rw [show (t.on φ).sepsets = t.sepsets.map (Sepset.on φ) from rfl, on_rd]
  cases rd t.sepsets s with
  | ub => rfl
  | ok sp =>
    simp only [on_ok, ok_bind, on_marked]
    rfl

theorem on_connected (fuel : Nat) (t : JTree K) (one two : Nat) : connected fuel (t.on φ) one two = (connected fuel t one two).on (Prod.map id (JTree.on φ)) := by
  induction fuel generalizing t one with
  | zero => rfl
  | succ fuel ih =>
    unfold connected
    refine on_bind (on_rd _ _ _) fun c => on_bind (on_setMark _ _ _) fun t => on_ite Iff.rfl rfl ?_
    refine on_foldlM (f := Prod.map id (JTree.on φ)) (fun st s => ?_) c.sepsets (false, t)
    refine on_ite Iff.rfl rfl ?_
    simp only [Prod.map_snd, on_next]
    refine on_same fun n => ?_
    cases n with
    | none => rfl
    | some d => exact ih _ _

section
variable (H : Hom φ)
include H

theorem on_messagePass (t : JTree K) (c1 s c2 : Nat) : (t.on φ).messagePass c1 s c2 = (t.messagePass c1 s c2).on (Prod.map id (JTree.on φ)) := by
  unfold messagePass
  refine on_bind (on_rd _ _ _) fun sp => on_bind (on_rd _ _ _) fun cl1 => on_same fun m1 => ?_
  refine on_bind (Potential.on_generalMarginalise H cl1.p sp.old (m1.2.getD [])) fun r => ?_
  refine on_bind (on_wr (Sepset.on φ) t.sepsets s { sp with old := sp.new, new := r.2 }) fun ss => ?_
  refine on_ite Iff.rfl rfl ?_
  refine on_bind (on_rd _ _ _) fun cl2 => on_same fun m2 => ?_
  refine on_bind (Potential.on_update H (some r.2) (some sp.new) cl2.p (m2.2.getD [])) fun q => ?_
  exact on_bind (on_wr (Clique.on φ) t.cliques c2 { cl2 with p := q.2 }) fun cs => rfl

theorem on_distribute (fuel : Nat) (t : JTree K) (c : Nat) : distribute fuel (t.on φ) c = (distribute fuel t c).on (Prod.map id (JTree.on φ)) := by
  induction fuel generalizing t c with
  | zero => rfl
  | succ fuel ih =>
    unfold distribute
    refine on_bind (on_rd _ _ _) fun cl => on_bind (on_setMark _ _ _) fun t => ?_
    refine on_bind (f := Prod.map id (JTree.on φ)) (on_foldlM (f := Prod.map id (JTree.on φ)) (fun st s => ?_) cl.sepsets (0, t)) fun st =>
      on_foldlM (f := Prod.map id (JTree.on φ)) (fun st s => ?_) cl.sepsets st
    · refine on_ite Iff.rfl rfl ?_
      simp only [Prod.map_snd, on_next]
      refine on_same fun n => ?_
      cases n with
      | none => rfl
      | some d => exact on_messagePass H _ _ _ _
    · refine on_ite Iff.rfl rfl ?_
      simp only [Prod.map_snd, on_next]
      refine on_same fun n => ?_
      cases n with
      | none => rfl
      | some d => exact ih _ _

theorem on_collect (fuel : Nat) (t : JTree K) (c1 s12 : Option Nat) (c2 : Nat) :
    collect fuel (t.on φ) c1 s12 c2 = (collect fuel t c1 s12 c2).on (Prod.map id (JTree.on φ)) := by
  induction fuel generalizing t c1 s12 c2 with
  | zero => rfl
  | succ fuel ih =>
    unfold collect
    refine on_bind (on_rd _ _ _) fun cl => on_bind (on_setMark _ _ _) fun t => ?_
    refine on_bind (f := Prod.map id (JTree.on φ)) (on_foldlM (f := Prod.map id (JTree.on φ)) (fun st s => ?_) cl.sepsets (0, t)) fun st => ?_
    · refine on_ite Iff.rfl rfl ?_
      refine on_bind (on_rd _ _ _) fun sp => ?_
      simp only [Prod.map_snd, on_marked]
      refine on_same fun m1 => ?_
      have rest : ∀ st : Nat × JTree K, (if (Prod.map id (JTree.on φ) st).1 ≠ 0 then ok (Prod.map id (JTree.on φ) st) else do
            let m2 ← (st.2.on φ).marked (sp.on φ).second
            if (!m2) = true then collect fuel (st.2.on φ) (some c2) (some s) (sp.on φ).second else ok (Prod.map id (JTree.on φ) st)) =
          (if st.1 ≠ 0 then ok st else do
            let m2 ← st.2.marked sp.second
            if (!m2) = true then collect fuel st.2 (some c2) (some s) sp.second else ok st).on (Prod.map id (JTree.on φ)) := by
        intro st
        refine on_ite Iff.rfl rfl ?_
        rw [on_marked]
        exact on_same fun m2 => on_ite Iff.rfl (ih _ _ _ _) rfl
      exact on_bind (f := Prod.map id (JTree.on φ)) (on_ite Iff.rfl (ih _ _ _ _) rfl) fun st => rest st
    · refine on_ite Iff.rfl rfl ?_
      cases c1 with
      | none => rfl
      | some c1 =>
        cases s12 with
        | none => rfl
        | some s12 => exact on_messagePass H _ _ _ _

theorem on_dfs {c' s' : Nat → JTree L × L → Res (Nat × (JTree L × L))} {c s : Nat → JTree K × K → Res (Nat × (JTree K × K))}
    (hc : ∀ i st, c' i (Prod.map (JTree.on φ) φ st) = (c i st).on (Prod.map id (Prod.map (JTree.on φ) φ)))
    (hs : ∀ i st, s' i (Prod.map (JTree.on φ) φ st) = (s i st).on (Prod.map id (Prod.map (JTree.on φ) φ))) (fuel : Nat) (st : JTree K × K) (start : Nat) :
    dfs c' s' fuel (Prod.map (JTree.on φ) φ st) start = (dfs c s fuel st start).on (Prod.map id (Prod.map (JTree.on φ) φ)) := by
  induction fuel generalizing st start with
  | zero => rfl
  | succ fuel ih =>
    unfold dfs
    refine on_bind (on_rd _ _ _) fun cl => on_bind (on_setMark _ _ _) fun t => on_bind (hc start (t, st.2)) fun r => ?_
    refine on_ite Iff.rfl rfl ?_
    refine on_foldlM (f := Prod.map id (Prod.map (JTree.on φ) φ)) (fun r i => ?_) cl.sepsets (0, r.2)
    refine on_ite Iff.rfl rfl ?_
    simp only [Prod.map_snd, Prod.map_fst, on_next]
    refine on_same fun n => ?_
    cases n with
    | none => rfl
    | some d =>
      refine on_bind (hs i r.2) fun q => on_ite Iff.rfl rfl ?_
      exact on_bind (ih q.2 d) fun q => rfl

theorem on_retractClique (i : Nat) (st : JTree K × K) :
    retractClique i (Prod.map (JTree.on φ) φ st) = (retractClique i st).on (Prod.map id (Prod.map (JTree.on φ) φ)) := by
  unfold retractClique
  refine on_bind (on_rd _ _ _) fun cl => on_bind (Potential.on_retract H cl.p cl.orig) fun r => ?_
  exact on_bind (on_wr (Clique.on φ) st.1.cliques i { cl with p := r.2 }) fun cs => rfl

theorem on_retractSepset (i : Nat) (st : JTree K × K) :
    retractSepset i (Prod.map (JTree.on φ) φ st) = (retractSepset i st).on (Prod.map id (Prod.map (JTree.on φ) φ)) := by
  unfold retractSepset
  refine on_bind (on_rd _ _ _) fun sp => ?_
  refine on_bind (f := List.map (Sepset.on φ)) ?_ fun ss => rfl
  rw [show ({ sp.on φ with old := (sp.on φ).old.uniform 1, new := (sp.on φ).new.uniform 1 } : Sepset L) =
    ({ sp with old := sp.old.uniform 1, new := sp.new.uniform 1 } : Sepset K).on φ from by
      simp only [Sepset.on, Potential.on_uniform_one H]]
  exact on_wr _ _ _ _

theorem on_varIndex (t : JTree K) (c v : Nat) : (t.on φ).varIndex c v = t.varIndex c v := by
  unfold varIndex
  rw [show (t.on φ).cliques = t.cliques.map (Clique.on φ) from rfl, on_rd]
  cases rd t.cliques c <;> rfl

theorem on_findClique (t : JTree K) (vars : List Nat) : (t.on φ).findClique vars = t.findClique vars := by
  unfold findClique
  rw [on_length]
  congr 1
  funext i
  rw [show (t.on φ).cliques = t.cliques.map (Clique.on φ) from rfl, on_rd]
  cases rd t.cliques i <;> rfl

theorem on_marginaliseClique (t : JTree K) (c v : Nat) (r : List K) :
    (t.on φ).marginaliseClique c v (r.map φ) = (t.marginaliseClique c v r).on (Prod.map id (List.map φ)) := by
  unfold marginaliseClique
  rw [on_varIndex H]
  refine on_same fun i => ?_
  cases i with
  | none => rfl
  | some i => exact on_bind (on_rd _ _ _) fun cl => Potential.on_totalMarginalise H _ _ _

end

end JTree

namespace Model

theorem on_setVar (m : Model K) (v : Nat) (r : VarRec K) : (m.on φ).setVar v (r.on φ) = (m.setVar v r).on φ := by
  unfold setVar Model.on
  congr 1
  funext u
  by_cases h : u = v
  · subst h; simp
  · simp [Function.update_of_ne h]

variable (H : Hom φ)
include H

theorem on_findFamily (m : Model K) (v : Nat) : (m.on φ).findFamily v = (m.findFamily v).on (Prod.map id (Model.on φ)) := by
  unfold findFamily
  rw [show ((m.on φ).var v).familyClique = (m.var v).familyClique from rfl]
  cases (m.var v).familyClique with
  | some c => rfl
  | none =>
    simp only
    rw [show (m.on φ).tree = m.tree.on φ from rfl, JTree.on_findClique H]
    refine on_same fun found => ?_
    rw [show ({ (m.on φ).var v with familyClique := found } : VarRec L) = ({ m.var v with familyClique := found } : VarRec K).on φ from rfl, on_setVar]
    rfl

theorem on_initClique (m : Model K) (c child : Nat) (p : Potential K) (tr : Bool) :
    (m.on φ).initClique c child (p.on φ) tr = (m.initClique c child p tr).on (Prod.map id (Model.on φ)) := by
  unfold initClique
  refine on_bind (on_rd _ _ _) fun cl => ?_
  have rest : ∀ mapping : Option (List Nat), (do
        let (e, q) ← Potential.init (p.on φ) (cl.on φ).p mapping
        let cs ← wr (m.on φ).tree.cliques c { cl.on φ with p := q }
        if e ≠ 0 then ok (e, { m.on φ with tree := { (m.on φ).tree with cliques := cs } })
        else if tr then ok (0, { m.on φ with tree := { (m.on φ).tree with cliques := cs } })
        else do
          let (e, o) ← Potential.init (p.on φ) (cl.on φ).orig mapping
          let cs ← wr (m.on φ).tree.cliques c { cl.on φ with p := q, orig := o }
          ok (e, { m.on φ with tree := { (m.on φ).tree with cliques := cs } })) =
      (do
        let (e, q) ← Potential.init p cl.p mapping
        let cs ← wr m.tree.cliques c { cl with p := q }
        if e ≠ 0 then ok (e, { m with tree := { m.tree with cliques := cs } })
        else if tr then ok (0, { m with tree := { m.tree with cliques := cs } })
        else do
          let (e, o) ← Potential.init p cl.orig mapping
          let cs ← wr m.tree.cliques c { cl with p := q, orig := o }
          ok (e, { m with tree := { m.tree with cliques := cs } }) : Res (Nat × Model K)).on (Prod.map id (Model.on φ)) := by
    intro mapping
    refine on_bind (Potential.on_init H p cl.p mapping) fun r => ?_
    refine on_bind (on_wr (Clique.on φ) m.tree.cliques c { cl with p := r.2 }) fun cs => ?_
    refine on_ite Iff.rfl rfl (on_ite Iff.rfl rfl ?_)
    refine on_bind (Potential.on_init H p cl.orig mapping) fun o => ?_
    exact on_bind (on_wr (Clique.on φ) m.tree.cliques c { cl with p := r.2, orig := o.2 }) fun cs => rfl
  exact on_same fun mp => rest mp

theorem on_multiplyEvidence (m : Model K) (c v : Nat) (num : List K) (den : Option (List K)) :
    (m.on φ).multiplyEvidence c v (num.map φ) (den.map (List.map φ)) = (m.multiplyEvidence c v num den).on (Model.on φ) := by
  unfold multiplyEvidence
  rw [show (m.on φ).tree = m.tree.on φ from rfl, JTree.on_varIndex H]
  refine on_same fun i => ?_
  cases i with
  | none => rfl
  | some i =>
    refine on_bind (on_rd _ _ _) fun cl => on_bind (Potential.on_updateEvidence H num den cl.p i) fun p => ?_
    exact on_bind (on_wr (Clique.on φ) m.tree.cliques c { cl with p := p }) fun cs => rfl

theorem on_globalRetraction (m : Model K) : (m.on φ).globalRetraction = (m.globalRetraction).on (Model.on φ) := by
  unfold globalRetraction
  refine on_bind (JTree.on_unmarkAll _) fun t => ?_
  rw [JTree.on_length]
  refine on_bind (f := Prod.map id (Prod.map (JTree.on φ) φ)) ?_ fun r => ?_
  · have := JTree.on_dfs H (JTree.on_retractClique H) (JTree.on_retractSepset H) (t.cliques.length + 1) (t, 0) 0
    simp only [Prod.map_apply, H.zero] at this
    exact this
  · refine on_foldlM (f := Model.on φ) (fun m v => ?_) m.varList { m with tree := r.2.1 }
    refine on_bind (on_findFamily H _ _) fun q => ?_
    obtain ⟨c, m⟩ := q
    cases c with
    | none => rfl
    | some c => exact on_multiplyEvidence H m c v (m.var v).likelihood none

theorem on_updateLikelihood (m : Model K) (v : Nat) (e : List K) : (m.on φ).updateLikelihood v (e.map φ) = (m.updateLikelihood v e).on (Model.on φ) := by
  unfold updateLikelihood
  refine on_bind (f := List.map φ) (on_loop rfl fun i l => on_bind (on_rd _ _ _) fun x => on_wr _ _ _ _) fun l => ?_
  rw [show ({ (m.on φ).var v with likelihood := l.map φ } : VarRec L) = ({ m.var v with likelihood := l } : VarRec K).on φ from rfl, on_setVar]
  rfl

theorem on_resetLikelihood (m : Model K) (v : Nat) : (m.on φ).resetLikelihood v = (m.resetLikelihood v).on (Model.on φ) := by
  unfold resetLikelihood
  refine on_bind (f := List.map φ) (on_loop rfl fun i l => by rw [← H.one]; exact on_wr _ _ _ _) fun l => ?_
  rw [show ({ (m.on φ).var v with likelihood := l.map φ } : VarRec L) = ({ m.var v with likelihood := l } : VarRec K).on φ from rfl, on_setVar]
  rfl

theorem on_enterEvidence (m : Model K) (v : Nat) (e : List K) : (m.on φ).enterEvidence v (e.map φ) = (m.enterEvidence v e).on (Prod.map id (Model.on φ)) := by
  unfold enterEvidence
  refine on_bind (on_findFamily H _ _) fun q => ?_
  obtain ⟨c, m⟩ := q
  cases c with
  | none => rfl
  | some c =>
    refine on_bind (f := id) (on_loop rfl fun i r => ?_) fun r => ?_
    · refine on_bind (on_rd _ _ _) fun l => on_bind (on_rd _ _ _) fun x => ?_
      simp only [H.isZero, ne_eq, id, on_ok]
    · have rest : ∀ m : Model K, (do
            let m ← (m.on φ).updateLikelihood v (e.map φ)
            let m ← (if r then m.globalRetraction else ok m)
            ok (0, m)) = (do
            let m ← m.updateLikelihood v e
            let m ← (if r then m.globalRetraction else ok m)
            ok (0, m) : Res (Nat × Model K)).on (Prod.map id (Model.on φ)) := by
        intro m
        refine on_bind (on_updateLikelihood H m v e) fun m => ?_
        exact on_bind (f := Model.on φ) (on_ite Iff.rfl (on_globalRetraction H m) rfl) fun m => rfl
      exact on_bind (f := Model.on φ) (on_ite Iff.rfl (on_multiplyEvidence H m c v e (some (m.var v).likelihood)) rfl) fun m => rest m

theorem on_enterIndexObservation (m : Model K) (v : Nat) (i : Int) :
    (m.on φ).enterIndexObservation v i = (m.enterIndexObservation v i).on (Prod.map id (Model.on φ)) := by
  unfold enterIndexObservation
  refine on_ite Iff.rfl rfl ?_
  refine on_bind (f := List.map φ) (on_loop (by simp [H.zero, Model.on, VarRec.on]) fun j l => ?_) fun e => on_enterEvidence H m v e
  rw [show (if (j : Int) = i then (1 : L) else 0) = φ (if (j : Int) = i then 1 else 0) from by split <;> simp [H.one, H.zero]]
  exact on_wr _ _ _ _

theorem on_enterPrior (m : Model K) (v : Nat) (p : List K) : (m.on φ).enterPrior v (p.map φ) = (m.enterPrior v p).on (Prod.map id (Model.on φ)) := by
  unfold enterPrior
  refine on_bind (on_findFamily H _ _) fun q => ?_
  obtain ⟨c, m⟩ := q
  refine on_bind (f := id) (on_loop rfl fun i r => ?_) fun r => ?_
  · refine on_bind (on_rd _ _ _) fun x => ?_
    simp only [gt_iff_lt, H.pos, id, on_ok]
  · cases c with
    | none => rfl
    | some c => exact on_ite Iff.rfl rfl (on_bind (on_multiplyEvidence H m c v p none) fun m => rfl)

theorem on_reset (m : Model K) : (m.on φ).reset = m.reset.on (Model.on φ) := by
  unfold reset
  refine on_bind (f := Model.on φ) (on_foldlM (f := Model.on φ) (fun m v => ?_) m.varList m) fun m => on_globalRetraction H m
  refine on_bind (on_resetLikelihood H m v) fun m => ?_
  rw [show ({ (m.on φ).var v with priorEntered := false } : VarRec L) = ({ m.var v with priorEntered := false } : VarRec K).on φ from rfl, on_setVar]
  rfl

theorem on_usePrior (h : Bool) (m : Model K) (v : Nat) : usePrior h (m.on φ) v = (usePrior h m v).on (Model.on φ) := by
  unfold usePrior
  rw [show ((m.on φ).var v).prior = (m.var v).prior.map (List.map φ) from rfl]
  cases (m.var v).prior with
  | none => rfl
  | some p =>
    refine on_ite Iff.rfl (on_ite Iff.rfl ?_ rfl) rfl
    refine on_bind (on_enterPrior H m v p) fun r => ?_
    obtain ⟨_, m⟩ := r
    show ok ((m.on φ).setVar v _) = _
    rw [show ({ (m.on φ).var v with priorEntered := true } : VarRec L) = ({ m.var v with priorEntered := true } : VarRec K).on φ from rfl, on_setVar]
    rfl

theorem on_usePriors (h : Bool) (m : Model K) : (m.on φ).usePriors h = (m.usePriors h).on (Model.on φ) :=
  on_foldlM (f := Model.on φ) (fun m v => on_usePrior H h m v) m.independent m

theorem on_makeConsistent (m : Model K) : (m.on φ).makeConsistent = m.makeConsistent.on (Model.on φ) := by
  unfold makeConsistent
  refine on_bind (JTree.on_unmarkAll _) fun t => ?_
  rw [JTree.on_length]
  refine on_bind (JTree.on_collect H _ t none none 0) fun r => on_ite Iff.rfl rfl ?_
  refine on_bind (JTree.on_unmarkAll _) fun t => ?_
  rw [JTree.on_length]
  exact on_bind (JTree.on_distribute H _ t 0) fun r => rfl

theorem on_getProbability (m : Model K) (v : Nat) :
    (m.on φ).getProbability v = (m.getProbability v).on (Prod.map (Option.map (List.map φ)) (Model.on φ)) := by
  unfold getProbability
  refine on_bind (on_findFamily H _ _) fun q => ?_
  obtain ⟨c, m⟩ := q
  cases c with
  | none => rfl
  | some c =>
    refine on_bind (f := Prod.map id (List.map φ)) ?_ fun r => ?_
    · have := JTree.on_marginaliseClique H m.tree c v (List.replicate (m.var v).card 0)
      rw [List.map_replicate, H.zero] at this
      exact this
    · exact on_bind (Potential.on_normaliseArray H r.2 0 (m.var v).card) fun r => rfl

end Model

/-- A call with other numbers. -/
def opOn (φ : K → L) : Op K → Op L
  | .evidence v e => .evidence v (e.map φ)
  | .observe v i => .observe v i
  | .reset => .reset
  | .priors h => .priors h
  | .propagate => .propagate
  | .mass => .mass
  | .query v => .query v

/-! ## the probability mass: its value is not of this kind (there is a subtraction), the tree left behind is -/

/-- Both runs end, with results that go together, or both meet undefined behaviour. -/
def Res.Match {α β : Type} (P : β → α → Prop) : Res β → Res α → Prop
  | ok b, ok a => P b a
  | ub, ub => True
  | _, _ => False

theorem match_bind {α β γ δ : Type} {P : β → α → Prop} {Q : δ → γ → Prop} {x' : Res β} {x : Res α} {k' : β → Res δ} {k : α → Res γ} (hx : Res.Match P x' x)
    (hk : ∀ b a, P b a → Res.Match Q (k' b) (k a)) : Res.Match Q (x' >>= k') (x >>= k) := by
  cases x' <;> cases x <;> first | exact hk _ _ hx | exact hx.elim | trivial

theorem match_on {α β : Type} {f : α → β} {x' : Res β} {x : Res α} (h : x' = x.on f) : Res.Match (fun b a => b = f a) x' x := by
  subst h
  cases x <;> first | rfl | trivial

theorem match_foldlM {α β γ : Type} {P : β → α → Prop} {g' : β → γ → Res β} {g : α → γ → Res α} (h : ∀ b a c, P b a → Res.Match P (g' b c) (g a c)) (l : List γ) :
    ∀ b a, P b a → Res.Match P (l.foldlM g' b) (l.foldlM g a) := by
  induction l with
  | nil => intro b a hp; exact hp
  | cons c l ih =>
    intro b a hp
    rw [List.foldlM_cons, List.foldlM_cons]
    exact match_bind (h b a c hp) fun b a hp => ih b a hp

theorem match_loop {α β : Type} {P : β → α → Prop} {n : Nat} {g' : Nat → β → Res β} {g : Nat → α → Res α} {s' : β} {s : α} (hs : P s' s)
    (h : ∀ i b a, P b a → Res.Match P (g' i b) (g i a)) : Res.Match P (loop n g' s') (loop n g s) := by
  induction n with
  | zero => exact hs
  | succ n ih =>
    unfold loop
    exact match_bind ih fun b a hp => h n b a hp

namespace JTree

theorem match_cliqueMass (i : Nat) (t : JTree K) (x : L) (y : K) :
    Res.Match (fun b a => b.1 = a.1 ∧ b.2.1 = a.2.1.on φ) (cliqueMass i (t.on φ, x)) (cliqueMass i (t, y)) := by
  unfold cliqueMass
  refine match_bind (match_on (on_rd (Clique.on φ) _ _)) ?_
  rintro _ cl rfl
  refine match_bind (P := fun _ _ => True) ?_ fun _ _ _ => ⟨rfl, rfl⟩
  show Res.Match _ (loop (cl.p.on φ).size _ _) _
  rw [Potential.on_size]
  refine match_loop trivial fun i b a _ => ?_
  exact match_bind (match_on (on_rd φ _ _)) fun _ _ _ => trivial

theorem match_negSepsetMass (i : Nat) (t : JTree K) (x : L) (y : K) :
    Res.Match (fun b a => b.1 = a.1 ∧ b.2.1 = a.2.1.on φ) (negSepsetMass i (t.on φ, x)) (negSepsetMass i (t, y)) := by
  unfold negSepsetMass
  refine match_bind (match_on (on_rd (Sepset.on φ) _ _)) ?_
  rintro _ sp rfl
  refine match_bind (P := fun _ _ => True) ?_ fun _ _ _ => ⟨rfl, rfl⟩
  show Res.Match _ (loop (sp.new.on φ).size _ _) _
  rw [Potential.on_size]
  refine match_loop trivial fun i b a _ => ?_
  exact match_bind (match_on (on_rd φ _ _)) fun _ _ _ => trivial

theorem match_mass (fuel : Nat) (t : JTree K) (x : L) (y : K) (start : Nat) :
    Res.Match (fun b a => b.1 = a.1 ∧ b.2.1 = a.2.1.on φ) (dfs cliqueMass negSepsetMass fuel (t.on φ, x) start) (dfs cliqueMass negSepsetMass fuel (t, y) start) := by
  induction fuel generalizing t x y start with
  | zero => exact trivial
  | succ fuel ih =>
    unfold dfs
    refine match_bind (match_on (on_rd (Clique.on φ) _ _)) ?_
    rintro _ cl rfl
    refine match_bind (match_on (on_setMark (φ := φ) t start true)) ?_
    rintro _ t rfl
    refine match_bind (match_cliqueMass start t x y) ?_
    rintro ⟨e', t', z'⟩ ⟨e, t, z⟩ ⟨h1, h2⟩
    simp only at h1 h2
    subst h1 h2
    simp only
    by_cases he : e' = 0
    · rw [if_neg (by simpa using he), if_neg (by simpa using he)]
      refine match_foldlM (P := fun (b : Nat × (JTree L × L)) (a : Nat × (JTree K × K)) => b.1 = a.1 ∧ b.2.1 = a.2.1.on φ) ?_ cl.sepsets _ _ ⟨rfl, rfl⟩
      rintro ⟨e', t', z'⟩ ⟨e, t, z⟩ i ⟨h1, h2⟩
      simp only at h1 h2
      subst h1 h2
      simp only [on_next]
      by_cases he : e' = 0
      · rw [if_neg (by simpa using he), if_neg (by simpa using he)]
        cases hn : t.next i with
        | ub => trivial
        | ok n =>
          cases n with
          | none => exact ⟨rfl, rfl⟩
          | some d =>
            show Res.Match _ (negSepsetMass i (t.on φ, z') >>= _) (negSepsetMass i (t, z) >>= _)
            refine match_bind (match_negSepsetMass i t z' z) ?_
            rintro ⟨e', t', z'⟩ ⟨e, t, z⟩ ⟨h1, h2⟩
            simp only at h1 h2
            subst h1 h2
            simp only
            by_cases he : e' = 0
            · rw [if_neg (by simpa using he), if_neg (by simpa using he)]
              exact match_bind (ih t z' z d) fun b a hp => ⟨rfl, hp.2⟩
            · rw [if_pos (by simpa using he), if_pos (by simpa using he)]
              exact ⟨rfl, rfl⟩
      · rw [if_pos (by simpa using he), if_pos (by simpa using he)]
        exact ⟨rfl, rfl⟩
    · rw [if_pos (by simpa using he), if_pos (by simpa using he)]
      exact ⟨rfl, rfl⟩

end JTree

theorem on_askMass (m : Model K) : (m.on φ).perform .mass = (m.perform .mass).on (Model.on φ) := by
  have h : Res.Match (fun b a => b = a.on φ) ((m.on φ).perform .mass) (m.perform .mass) := by
    unfold Model.perform Model.probMass JTree.probabilityMass
    refine match_bind (P := fun (b : L × Model L) (a : K × Model K) => b.2 = a.2.on φ) ?_ fun _ _ h => h
    refine match_bind (P := fun (b : L × JTree L) (a : K × JTree K) => b.2 = a.2.on φ) ?_ fun b a h => ?_
    · refine match_bind (match_on (JTree.on_unmarkAll (φ := φ) m.tree)) ?_
      rintro _ t rfl
      rw [JTree.on_length]
      exact match_bind (JTree.match_mass _ t 0 0 0) fun b a h => h.2
    · show ({ m.on φ with tree := b.2 } : Model L) = _
      rw [h]
      rfl
  revert h
  cases (m.on φ).perform .mass <;> cases m.perform .mass <;> intro h <;> first | exact h.elim | rfl | exact congrArg ok h

theorem on_perform (H : Hom φ) (m : Model K) (op : Op K) : (m.on φ).perform (opOn φ op) = (m.perform op).on (Model.on φ) := by
  cases op with
  | evidence v e => exact on_bind (Model.on_enterEvidence H m v e) fun r => rfl
  | observe v i => exact on_bind (Model.on_enterIndexObservation H m v i) fun r => rfl
  | reset => exact Model.on_reset H m
  | priors b => exact Model.on_usePriors H b m
  | propagate => exact Model.on_makeConsistent H m
  | mass => exact on_askMass m
  | query v => exact on_bind (Model.on_getProbability H m v) fun r => rfl

theorem on_performAll (H : Hom φ) (ops : List (Op K)) (m : Model K) :
    (m.on φ).performAll (ops.map (opOn φ)) = (m.performAll ops).on (Model.on φ) := by
  induction ops generalizing m with
  | nil => rfl
  | cons op ops ih =>
    unfold Model.performAll at ih ⊢
    rw [List.map_cons, List.foldlM_cons, List.foldlM_cons]
    exact on_bind (on_perform H m op) fun m => ih m

end Nip
