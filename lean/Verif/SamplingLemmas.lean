import Mathlib.Data.List.Basic
import Mathlib.Data.List.Nodup
import Mathlib.Data.List.Perm.Subperm
import Mathlib.Data.Finite.Defs
import Mathlib.Order.WellFounded
import Mathlib.Data.Fintype.Card
import Mathlib.Data.Set.Finite.List
import Mathlib.Data.Finite.Prod
import Mathlib.Logic.Relation
import Verif.Sampling

/-!
# Lemmas on the order of sampling
-/

namespace Nip.Order

open Nip Res

/-- Distinct members of `varList`, each after its parents. -/
structure Good (parents : Nat → List Nat) (varList l : List Nat) : Prop where
  nodup : l.Nodup
  sub : ∀ v ∈ l, v ∈ varList
  earlier : ∀ a v b, l = a ++ v :: b → ∀ p ∈ parents v, p ∈ a

/-- The state when the variables `l` have been listed. -/
def stOf (varList : List Nat) (mark : Nat → Bool) (l : List Nat) : OrderState where
  vars := l ++ List.replicate (varList.length - l.length) 0
  j := l.length
  mark := fun w => if w ∈ varList then decide (w ∈ l) else mark w

variable {parents : Nat → List Nat} {varList : List Nat} {mark : Nat → Bool}

theorem Good.length_le {l : List Nat} (h : Good parents varList l) : l.length ≤ varList.length :=
  (h.nodup.subperm h.sub).length_le

theorem Good.snoc {l : List Nat} (h : Good parents varList l) {v : Nat} (hv : v ∈ varList) (hn : v ∉ l) (hp : ∀ p ∈ parents v, p ∈ l) :
    Good parents varList (l ++ [v]) := by
  refine ⟨?_, ?_, ?_⟩
  · rw [List.nodup_append]
    refine ⟨h.nodup, by simp, ?_⟩
    intro a ha b hb
    simp only [List.mem_singleton] at hb
    subst hb
    rintro rfl
    exact hn ha
  · intro w hw
    rcases List.mem_append.mp hw with hw | hw
    · exact h.sub w hw
    · simp only [List.mem_singleton] at hw
      subst hw; exact hv
  · intro a w b hab p hpw
    rcases List.eq_nil_or_concat b with hb | ⟨b', x, hb⟩
    · subst hb
      have := List.append_inj' hab rfl
      simp only [List.cons.injEq, and_true] at this
      rw [← this.1]
      exact hp p (this.2 ▸ hpw)
    · subst hb
      have e : l ++ [v] = (a ++ w :: b') ++ [x] := by rw [hab]; simp
      exact h.earlier a w b' (List.append_inj' e rfl).1 p hpw

theorem stOf_add {l : List Nat} (h : Good parents varList l) {v : Nat} (hv : v ∈ varList) (hn : v ∉ l) :
    (stOf varList mark l).add v = ok (stOf varList mark (l ++ [v])) := by
  have hlt : l.length < varList.length := by
    have : (l ++ [v]).length ≤ varList.length := by
      refine (List.Nodup.subperm (l₁ := l ++ [v]) ?_ ?_).length_le
      · rw [List.nodup_append]
        refine ⟨h.nodup, by simp, ?_⟩
        intro a ha b hb
        simp only [List.mem_singleton] at hb
        subst hb
        rintro rfl
        exact hn ha
      · intro w hw
        rcases List.mem_append.mp hw with hw | hw
        · exact h.sub w hw
        · simp only [List.mem_singleton] at hw
          subst hw; exact hv
    rw [List.length_append] at this
    exact this
  unfold OrderState.add stOf
  simp only
  rw [wr_lt (by simp; omega)]
  simp only [ok_bind, Res.ok.injEq, OrderState.mk.injEq]
  refine ⟨?_, by simp, ?_⟩
  · rw [List.set_append_right _ _ (Nat.le_refl _), Nat.sub_self]
    have e : varList.length - l.length = (varList.length - (l ++ [v]).length) + 1 := by simp; omega
    rw [e, List.replicate_succ, List.set_cons_zero]
    simp
  · funext w
    by_cases hw : w = v
    · subst hw; simp [hv]
    · simp [hw]

theorem independent_spec (hnd : varList.Nodup) :
    ∃ l, (stOf varList mark []).independent parents varList = ok (stOf varList mark l) ∧ Good parents varList l := by
  unfold OrderState.independent
  obtain ⟨s, h1, l, h2, h3, h4⟩ := loop_inv (n := varList.length) (s := stOf varList mark [])
    (f := fun i st => do
      let v ← rd varList i
      if (parents v).length = 0 then st.add v else ok st)
    (fun i st => ∃ l, st = stOf varList mark l ∧ Good parents varList l ∧ ∀ v ∈ l, v ∈ varList.take i)
    ⟨[], rfl, ⟨List.nodup_nil, by simp, by simp⟩, by simp⟩ (by
      rintro i hi st ⟨l, rfl, hg, hl⟩
      rw [rd_lt hi]
      simp only [ok_bind]
      by_cases hp : (parents varList[i]).length = 0
      · rw [if_pos hp]
        have hn : varList[i] ∉ l := by
          intro hm
          have := hl _ hm
          obtain ⟨k, hk, hk2⟩ := List.getElem_of_mem this
          rw [List.getElem_take] at hk2
          rw [List.length_take] at hk
          have := (List.Nodup.getElem_inj_iff hnd).mp hk2
          omega
        rw [stOf_add hg (List.getElem_mem hi) hn]
        refine ⟨_, rfl, _, rfl, hg.snoc (List.getElem_mem hi) hn ?_, ?_⟩
        · rw [List.length_eq_zero_iff] at hp; rw [hp]; simp
        · intro v hv
          rw [List.take_add_one, List.getElem?_eq_getElem hi]
          rcases List.mem_append.mp hv with hv | hv
          · exact List.mem_append_left _ (hl v hv)
          · exact List.mem_append_right _ (by simpa using hv)
      · rw [if_neg hp]
        refine ⟨_, rfl, l, rfl, hg, ?_⟩
        intro v hv
        rw [List.take_add_one]
        exact List.mem_append_left _ (hl v hv))
  exact ⟨l, h2 ▸ h1, h3⟩

theorem all_mark {l : List Nat} {v : Nat} (hc : ∀ v ∈ varList, ∀ p ∈ parents v, p ∈ varList) (hv : v ∈ varList) :
    (parents v).all (stOf varList mark l).mark = true ↔ ∀ p ∈ parents v, p ∈ l := by
  rw [List.all_eq_true]
  refine forall₂_congr (fun p hp => ?_)
  simp [stOf, hc v hv p hp]

/-- A pass lists, in addition, at least the variables whose parents were listed before it. -/
theorem pass_spec (hc : ∀ v ∈ varList, ∀ p ∈ parents v, p ∈ varList) {l : List Nat} (hg : Good parents varList l) :
    ∃ l', (stOf varList mark l).pass parents varList = ok (stOf varList mark l') ∧ Good parents varList l' ∧ l <+: l' ∧
      ∀ v ∈ varList, (∀ p ∈ parents v, p ∈ l) → v ∈ l' := by
  unfold OrderState.pass
  obtain ⟨s, h1, l', h2, h3, h4, h5⟩ := loop_inv (n := varList.length) (s := stOf varList mark l)
    (f := fun i st => do
      let v ← rd varList i
      if st.mark v then ok st
      else if (parents v).all st.mark then st.add v
      else ok st)
    (fun i st => ∃ l', st = stOf varList mark l' ∧ Good parents varList l' ∧ l <+: l' ∧
      ∀ v ∈ varList.take i, (∀ p ∈ parents v, p ∈ l) → v ∈ l')
    ⟨l, rfl, hg, List.prefix_refl _, by simp⟩ (by
      rintro i hi st ⟨l', rfl, hg', hpre, hl⟩
      rw [rd_lt hi]
      simp only [ok_bind]
      have hmem := List.getElem_mem hi
      have hm : (stOf varList mark l').mark varList[i] = decide (varList[i] ∈ l') := by simp [stOf, hmem]
      have htake : ∀ v ∈ varList.take (i + 1), v ∈ varList.take i ∨ v = varList[i] := by
        intro v hv
        rw [List.take_add_one, List.getElem?_eq_getElem hi] at hv
        rcases List.mem_append.mp hv with hv | hv
        · exact Or.inl hv
        · exact Or.inr (by simpa using hv)
      rw [hm]
      by_cases h : varList[i] ∈ l'
      · rw [if_pos (by simpa using h)]
        refine ⟨_, rfl, l', rfl, hg', hpre, fun v hv hp => ?_⟩
        rcases htake v hv with hv | rfl
        · exact hl v hv hp
        · exact h
      · rw [if_neg (by simpa using h)]
        by_cases hp : ∀ p ∈ parents varList[i], p ∈ l'
        · rw [if_pos ((all_mark hc hmem).mpr hp), stOf_add hg' hmem h]
          refine ⟨_, rfl, _, rfl, hg'.snoc hmem h hp, hpre.trans (List.prefix_append _ _), fun v hv hp => ?_⟩
          rcases htake v hv with hv | rfl
          · exact List.mem_append_left _ (hl v hv hp)
          · simp
        · rw [if_neg (fun h => hp ((all_mark hc hmem).mp h))]
          refine ⟨_, rfl, l', rfl, hg', hpre, fun v hv hp' => ?_⟩
          rcases htake v hv with hv | rfl
          · exact hl v hv hp'
          · exact absurd (fun p hpp => hpre.subset (hp' p hpp)) hp)
  refine ⟨l', h2 ▸ h1, h3, h4, ?_⟩
  rw [List.take_length] at h5
  exact h5

/-- In an acyclic network, some variable that is not listed has all its parents listed. -/
theorem exists_next (hc : ∀ v ∈ varList, ∀ p ∈ parents v, p ∈ varList)
    (ha : ∀ v, ¬ Relation.TransGen (fun p c => c ∈ varList ∧ p ∈ parents c) v v) {l : List Nat} (hl : l.length < varList.length)
    (hnd : varList.Nodup) : ∃ v ∈ varList, v ∉ l ∧ ∀ p ∈ parents v, p ∈ l := by
  have hex : ∃ v ∈ varList, v ∉ l := by
    by_contra hcon
    have hsub : ∀ v ∈ varList, v ∈ l := fun v hv => by
      by_contra hvl
      exact hcon ⟨v, hv, hvl⟩
    have := (hnd.subperm hsub).length_le
    omega
  let r : {v // v ∈ varList} → {v // v ∈ varList} → Prop :=
    fun a b => Relation.TransGen (fun p c => c ∈ varList ∧ p ∈ parents c) a.1 b.1
  have : IsTrans _ r := ⟨fun a b c hab hbc => Relation.TransGen.trans hab hbc⟩
  have : Std.Irrefl r := ⟨fun a => ha a.1⟩
  have : Finite {v // v ∈ varList} := (List.finite_toSet varList).to_subtype
  have wf : WellFounded r := Finite.wellFounded_of_trans_of_irrefl r
  obtain ⟨v0, hv0, hv0l⟩ := hex
  obtain ⟨m, hm, hmin⟩ := wf.has_min {v | v.1 ∉ l} ⟨⟨v0, hv0⟩, hv0l⟩
  refine ⟨m.1, m.2, hm, fun p hp => ?_⟩
  by_contra hpl
  exact hmin ⟨p, hc m.1 m.2 p hp⟩ hpl (Relation.TransGen.single ⟨m.2, hp⟩)

theorem passes_spec (hc : ∀ v ∈ varList, ∀ p ∈ parents v, p ∈ varList) (hnd : varList.Nodup)
    (ha : ∀ v, ¬ Relation.TransGen (fun p c => c ∈ varList ∧ p ∈ parents c) v v) (fuel : Nat) {l : List Nat}
    (hg : Good parents varList l) (hf : varList.length + 1 ≤ fuel + l.length) :
    ∃ l', (stOf varList mark l).passes parents varList fuel = ok (stOf varList mark l') ∧ Good parents varList l' ∧
      l'.length = varList.length := by
  induction fuel generalizing l with
  | zero => have := hg.length_le; omega
  | succ fuel ih =>
    unfold OrderState.passes
    have hj : (stOf varList mark l).j = l.length := rfl
    rw [hj]
    by_cases hlt : l.length < varList.length
    · rw [if_pos hlt]
      obtain ⟨l', h1, h2, h3, h4⟩ := pass_spec (mark := mark) hc hg
      rw [h1]
      simp only [ok_bind]
      refine ih h2 ?_
      obtain ⟨v, hv, hvl, hvp⟩ := exists_next hc ha hlt hnd
      have hlen := h3.length_le
      rcases Nat.lt_or_ge l.length l'.length with hgt | hge
      · omega
      · have : l = l' := h3.eq_of_length (by omega)
        exact absurd (this ▸ h4 v hv hvp) hvl
    · rw [if_neg hlt]
      exact ⟨l, rfl, hg, by have := hg.length_le; omega⟩

/-- Whenever the loop ends, the order is good. -/
theorem passes_end (hc : ∀ v ∈ varList, ∀ p ∈ parents v, p ∈ varList) (fuel : Nat) {l : List Nat}
    (hg : Good parents varList l) (st : OrderState) (h : (stOf varList mark l).passes parents varList fuel = ok st) :
    ∃ l', st = stOf varList mark l' ∧ Good parents varList l' ∧ l'.length = varList.length := by
  induction fuel generalizing l with
  | zero => cases h
  | succ fuel ih =>
    unfold OrderState.passes at h
    have hj : (stOf varList mark l).j = l.length := rfl
    rw [hj] at h
    by_cases hlt : l.length < varList.length
    · rw [if_pos hlt] at h
      obtain ⟨l', h1, h2, _, _⟩ := pass_spec (mark := mark) hc hg
      rw [h1] at h
      simp only [ok_bind] at h
      exact ih h2 h
    · rw [if_neg hlt] at h
      cases h
      exact ⟨l, rfl, hg, by have := hg.length_le; omega⟩

theorem samplingOrder_eq (fuel : Nat) : samplingOrder parents varList mark fuel =
    ((stOf varList mark []).independent parents varList).bind (fun st => (st.passes parents varList fuel).bind (fun st => ok st.vars)) := by
  have e : stOf varList mark [] = { vars := List.replicate varList.length 0, j := 0, mark := fun v => if v ∈ varList then false else mark v } := by
    simp [stOf]
  rw [e]
  rfl

end Nip.Order
