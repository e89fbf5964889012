import Verif.Pass
import Verif.UnrolledLemmas

/-! # The interface between time slices -/

namespace Nip

open Res Spec

set_option linter.unusedSectionVars false

section

variable {K : Type} [Zero K] [One K] [Add K] [_root_.Sub K] [Mul K] [Div K] [LinearOrder K]

/-- variables that have a successor -/
def NetFile.olds (f : NetFile K) : List Nat := f.vars.filter (fun v => (f.next v).isSome)

/-- the successor -/
def NetFile.succ (f : NetFile K) (v : Nat) : Nat := (f.next v).getD 0

theorem mem_olds {f : NetFile K} {v : Nat} : v ∈ NetFile.olds f ↔ v ∈ f.vars ∧ ∃ u, f.next v = some u := by
  unfold NetFile.olds
  rw [List.mem_filter, Option.isSome_iff_exists]

theorem oldOut_iff {K : Type} [Field K] [LinearOrder K] {f : NetFile K} (ht : f.Temporal) {v : Nat} (hv : v ∈ f.vars) : f.net.oldOut v = (f.next v).isSome := by
  show decide _ = _
  rw [Bool.eq_iff_iff, decide_eq_true_eq, Option.isSome_iff_ne_none]
  constructor
  · rintro ⟨h, _⟩; exact h
  · intro h
    obtain ⟨u, hu⟩ := Option.ne_none_iff_exists'.mp h
    exact ⟨h, ht.used v hv u hu⟩

theorem oldOutgoing_iff {f : NetFile K} (hf : f.Fits) (ht : f.Temporal) {v : Nat} (hv : v ∈ f.vars) : (NetFile.record f v).oldOutgoing = (f.next v).isSome := by
  show decide _ = _
  rw [Bool.eq_iff_iff, decide_eq_true_eq, Option.isSome_iff_ne_none]
  constructor
  · rintro ⟨_, h⟩; exact h
  · intro h
    obtain ⟨u, hu⟩ := Option.ne_none_iff_exists'.mp h
    obtain ⟨q, hq, hp⟩ := ht.used v hv u hu
    exact ⟨⟨q.child, hf.child q hq, (mem_parentsOf hf).mpr ⟨q, hq, rfl, hp⟩⟩, h⟩

theorem outgoing_iff {f : NetFile K} (hf : f.Fits) (ht : f.Temporal) {u : Nat} :
    (NetFile.record f u).outgoing = true ↔ u ∈ (NetFile.olds f).map (NetFile.succ f) := by
  show decide _ = true ↔ _
  rw [decide_eq_true_eq, List.mem_map]
  constructor
  · rintro ⟨w, _, p, hp, e⟩
    obtain ⟨q, hq, _, hp⟩ := (mem_parentsOf hf).mp hp
    exact ⟨p, mem_olds.mpr ⟨((hf.parents q hq).2 p hp).1, u, e⟩, by unfold NetFile.succ; rw [e]; rfl⟩
  · rintro ⟨v, hv, e⟩
    obtain ⟨hv, u', hu'⟩ := mem_olds.mp hv
    unfold NetFile.succ at e
    rw [hu'] at e
    simp only [Option.getD_some] at e
    subst e
    obtain ⟨q, hq, hp⟩ := ht.used v hv u' hu'
    exact ⟨q.child, hf.child q hq, v, (mem_parentsOf hf).mpr ⟨q, hq, rfl, hp⟩, hu'⟩

theorem succ_nodup {f : NetFile K} (hf : f.Fits) (ht : f.Temporal) : ((NetFile.olds f).map (NetFile.succ f)).Nodup := by
  have hnd : (NetFile.olds f).Nodup := (hf.sorted.imp ne_of_lt).filter _
  refine List.Nodup.map_on ?_ hnd
  intro v hv w hw e
  obtain ⟨hv, u, hu⟩ := mem_olds.mp hv
  obtain ⟨hw, u', hu'⟩ := mem_olds.mp hw
  unfold NetFile.succ at e
  rw [hu, hu'] at e
  simp only [Option.getD_some] at e
  subst e
  exact ht.distinct v hv w hw u hu hu'

theorem succ_mem {f : NetFile K} (ht : f.Temporal) {u : Nat} (hu : u ∈ (NetFile.olds f).map (NetFile.succ f)) : u ∈ f.vars := by
  obtain ⟨v, hv, rfl⟩ := List.mem_map.mp hu
  obtain ⟨hv, u, hu⟩ := mem_olds.mp hv
  unfold NetFile.succ
  rw [hu]
  exact (ht.states v hv u hu).1

theorem succ_card {f : NetFile K} (ht : f.Temporal) : ((NetFile.olds f).map (NetFile.succ f)).map f.card = (NetFile.olds f).map f.card := by
  rw [List.map_map]
  apply List.map_congr_left
  intro v hv
  obtain ⟨hv, u, hu⟩ := mem_olds.mp hv
  simp only [Function.comp, NetFile.succ, hu, Option.getD_some]
  exact (ht.states v hv u hu).2

theorem outgoing_perm {f : NetFile K} (hf : f.Fits) (ht : f.Temporal) :
    (f.vars.filter (fun v => (NetFile.record f v).outgoing)).Perm ((NetFile.olds f).map (NetFile.succ f)) := by
  rw [List.perm_ext_iff_of_nodup ((hf.sorted.imp ne_of_lt).filter _) (succ_nodup hf ht)]
  intro u
  rw [List.mem_filter, outgoing_iff hf ht]
  exact ⟨fun h => h.2, fun h => ⟨succ_mem ht h, h⟩⟩

/-- the arrays of the interface -/
theorem interfaceArrays_eq {f : NetFile K} (hf : f.Fits) (ht : f.Temporal) {m : Model K} (hv : m.varList = f.vars)
    (ho : ∀ v ∈ f.vars, (m.var v).oldOutgoing = (f.next v).isSome) (hu : ∀ v, (m.var v).outgoing = (NetFile.record f v).outgoing) :
    NetFile.interfaceArrays f m = ok (NetFile.olds f, (NetFile.olds f).map (NetFile.succ f)) := by
  obtain ⟨n, hn⟩ : ∃ n, n = (m.varList.filter (fun v => (m.var v).outgoing)).length := ⟨_, rfl⟩
  have hn' : n = (NetFile.olds f).length := by
    rw [hn, hv]
    simp only [hu]
    rw [(outgoing_perm hf ht).length_eq, List.length_map]
  obtain ⟨P, hP⟩ : ∃ P : Nat → List Nat, P = fun i => (f.vars.take i).filter (fun v => (f.next v).isSome) := ⟨_, rfl⟩
  have hPn : ∀ i, i < f.vars.length → ((f.next (f.vars.getD i 0)).isSome = true → P (i + 1) = P i ++ [f.vars.getD i 0]) ∧
      ((f.next (f.vars.getD i 0)).isSome = false → P (i + 1) = P i) := by
    intro i hi
    rw [hP]
    simp only
    rw [List.take_add_one, List.getElem?_eq_getElem hi, List.filter_append, List.getD_eq_getElem _ _ hi]
    constructor
    · intro h; simp [h]
    · intro h; simp [h]
  have hPle : ∀ i, (P i).length ≤ n := by
    intro i
    rw [hn', hP]
    exact ((List.take_sublist i f.vars).filter _).length_le
  have hlast : P f.vars.length = NetFile.olds f := by rw [hP]; simp only [List.take_length]; rfl
  unfold NetFile.interfaceArrays
  simp only
  rw [← hn]
  obtain ⟨st, e1, e2⟩ := loop_inv (n := m.varList.length) (s := (0, List.replicate n 0, List.replicate n 0)) (f := fun i (st : Nat × List Nat × List Nat) => do
    let v ← rd m.varList i
    if (m.var v).oldOutgoing then
      match f.next v with
      | none => ub
      | some u => do
        let prev ← wr st.2.1 st.1 v
        let out ← wr st.2.2 st.1 u
        if (m.var u).outgoing then ok (st.1 + 1, prev, out) else ub
    else ok st)
    (fun i st => st = ((P i).length, P i ++ List.replicate (n - (P i).length) 0, (P i).map (NetFile.succ f) ++ List.replicate (n - (P i).length) 0))
    (by rw [hP]; simp)
    (by
      rintro i hi _ rfl
      have hi' : i < f.vars.length := by rw [← hv]; exact hi
      have hrd : rd m.varList i = ok (f.vars.getD i 0) := by
        rw [hv, rd_lt hi', List.getD_eq_getElem _ _ hi']
      have hvm : f.vars.getD i 0 ∈ f.vars := by rw [List.getD_eq_getElem _ _ hi']; exact List.getElem_mem _
      obtain ⟨v, hvv⟩ : ∃ v, v = f.vars.getD i 0 := ⟨_, rfl⟩
      obtain ⟨p1, p2⟩ := hPn i hi'
      rw [← hvv] at hrd hvm p1 p2
      rw [hrd, ok_bind, ho v hvm]
      cases hnx : f.next v with
      | none =>
        refine ⟨_, by simp only [Option.isSome_none, Bool.false_eq_true, if_false]; rfl, ?_⟩
        rw [p2 (by rw [hnx]; rfl)]
      | some u =>
        have hP1 := p1 (by rw [hnx]; rfl)
        have hlt : (P i).length < n := by
          have := hPle (i + 1)
          rw [hP1] at this
          simp at this; omega
        have hout : (m.var u).outgoing = true := by
          rw [hu, outgoing_iff hf ht]
          exact List.mem_map.mpr ⟨v, mem_olds.mpr ⟨hvm, u, hnx⟩, by unfold NetFile.succ; rw [hnx]; rfl⟩
        obtain ⟨k, hk⟩ : ∃ k, n - (P i).length = k + 1 := ⟨n - (P i).length - 1, by omega⟩
        refine ⟨_, by
          simp only [Option.isSome_some, if_true]
          rw [wr_lt (by simp; omega), ok_bind, wr_lt (by simp; omega), ok_bind, if_pos hout], ?_⟩
        rw [hP1, hk]
        have hk' : n - (P i ++ [v]).length = k := by simp; omega
        rw [hk', List.replicate_succ]
        have hs : NetFile.succ f v = u := by unfold NetFile.succ; rw [hnx]; rfl
        simp [hs])
  subst e2
  refine Eq.trans (congrArg (fun r => Res.bind r _) e1) ?_
  rw [ok_bind']
  simp only
  rw [hv, hlast, ← hn', Nat.sub_self]
  simp

end

variable {K : Type} [Field K] [LinearOrder K] [IsStrictOrderedRing K]

theorem interface_spec (ptr : Nat) {f : NetFile K} (hf : f.Valid) (ht : f.Temporal) :
    ∃ m s, NetFile.parseModel ptr f = ok (some (m, s)) ∧ NetFile.build ptr f = ok (some m) ∧ Model.Holds f.net m (World.fresh f.net) ∧ InterfaceOk f.net m s ∧
      s.prev = NetFile.olds f ∧ s.out = (NetFile.olds f).map (NetFile.succ f) := by
  obtain ⟨m, h1, h2, h3, h4, h5, _, _⟩ := build_spec ptr hf
  have ha := interfaceArrays_eq hf ht h2.sound.vars (fun v hv => (h2.sound.old v).trans (oldOut_iff ht hv)) (fun v => (h3 v).2)
  have hprev : (NetFile.olds f).Nodup ∧ ∀ v ∈ NetFile.olds f, v ∈ f.net.vars :=
    ⟨(hf.sorted.imp ne_of_lt).filter _, fun v hv => (mem_olds.mp hv).1⟩
  have hout : ((NetFile.olds f).map (NetFile.succ f)).Nodup ∧ ∀ v ∈ (NetFile.olds f).map (NetFile.succ f), v ∈ f.net.vars :=
    ⟨succ_nodup hf ht, fun v hv => succ_mem ht hv⟩
  by_cases hne : (NetFile.olds f).map (NetFile.succ f) = []
  · refine ⟨m, { prev := NetFile.olds f, out := (NetFile.olds f).map (NetFile.succ f), inClique := none, outClique := none }, ?_, h1, h2,
      ⟨hprev, hout, succ_card ht, fun h => absurd hne h, fun h => absurd hne h⟩, rfl, rfl⟩
    unfold NetFile.parseModel NetFile.interface
    rw [h1, ok_bind]
    simp only
    rw [ha, ok_bind]
    simp only
    rw [if_neg (by rw [hne]; simp), ok_bind]
  · obtain ⟨i, i1, i2, i3⟩ := findClique_some (t := m.tree) (vs := NetFile.olds f) (by
      obtain ⟨c, c1, c2⟩ := h5
      refine ⟨c, c1, fun v hv => c2 v (mem_olds.mp hv).1 ?_⟩
      obtain ⟨hv, u, hu⟩ := mem_olds.mp hv
      rw [h2.sound.old, oldOut_iff ht hv, hu]; rfl)
    obtain ⟨o, o1, o2, o3⟩ := findClique_some (t := m.tree) (vs := (NetFile.olds f).map (NetFile.succ f)) (by
      obtain ⟨c, c1, c2⟩ := h4
      refine ⟨c, c1, fun v hv => c2 v (succ_mem ht hv) ?_⟩
      rw [(h3 v).2, outgoing_iff hf ht]; exact hv)
    refine ⟨m, { prev := NetFile.olds f, out := (NetFile.olds f).map (NetFile.succ f), inClique := some i, outClique := some o }, ?_, h1, h2,
      ⟨hprev, hout, succ_card ht, fun _ => ⟨i, rfl, i2, i3⟩, fun _ => ⟨o, rfl, o2, o3⟩⟩, rfl, rfl⟩
    unfold NetFile.parseModel NetFile.interface
    rw [h1, ok_bind]
    simp only
    rw [ha, ok_bind]
    simp only
    rw [if_pos (List.length_pos_iff.mpr hne), i1, ok_bind, o1, ok_bind]
    simp only [ok_bind]

end Nip
