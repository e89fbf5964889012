import Verif.Graph
import Mathlib.Data.List.Basic
import Mathlib.Data.List.Nodup
import Mathlib.Data.List.GetD
import Mathlib.Tactic.Common
import Mathlib.Tactic.Linarith

/-! # Lemmas about graphs -/

namespace Nip.Graph

open Res

/-- sizes of the arrays are right -/
structure Wf (g : Graph) : Prop where
  adjLen : g.adj.length = g.size * g.size
  varsLen : g.vars.length = g.size

/-- entry of the adjacency matrix -/
def val (g : Graph) (i j : Nat) : Bool := g.adj.getD (i * g.size + j) false

theorem flat_lt {n i j : Nat} (hi : i < n) (hj : j < n) : i * n + j < n * n := by
  have : (i + 1) * n ≤ n * n := Nat.mul_le_mul_right _ hi
  have e : (i + 1) * n = i * n + n := Nat.succ_mul i n
  omega

theorem flat_inj {n i j a b : Nat} (hj : j < n) (hb : b < n) : i * n + j = a * n + b ↔ i = a ∧ j = b := by
  constructor
  · intro h
    have h1 : (i * n + j) / n = i := by
      rw [Nat.mul_comm, Nat.mul_add_div (by omega), Nat.div_eq_of_lt hj]; omega
    have h2 : (a * n + b) / n = a := by
      rw [Nat.mul_comm, Nat.mul_add_div (by omega), Nat.div_eq_of_lt hb]; omega
    have : i = a := by rw [← h1, h, h2]
    subst this; exact ⟨rfl, by omega⟩
  · rintro ⟨rfl, rfl⟩; rfl

theorem adjm_eq {g : Graph} (h : Wf g) {i j : Nat} (hi : i < g.size) (hj : j < g.size) : g.adjm i j = ok (g.val i j) := by
  have hlt : i * g.size + j < g.adj.length := by rw [h.adjLen]; exact flat_lt hi hj
  unfold adjm val
  rw [rd_lt hlt, List.getD_eq_getElem _ _ hlt]

theorem setAdjm_eq {g : Graph} (h : Wf g) {i j : Nat} (hi : i < g.size) (hj : j < g.size) (x : Bool) :
    ∃ g', g.setAdjm i j x = ok g' ∧ Wf g' ∧ g'.size = g.size ∧ g'.vars = g.vars ∧ g'.top = g.top ∧ g'.minId = g.minId ∧
      g'.maxId = g.maxId ∧ g'.varInd = g.varInd ∧
      ∀ a b, a < g.size → b < g.size → g'.val a b = if a = i ∧ b = j then x else g.val a b := by
  have hlt : i * g.size + j < g.adj.length := by rw [h.adjLen]; exact flat_lt hi hj
  refine ⟨{ g with adj := g.adj.set (i * g.size + j) x }, by unfold setAdjm; rw [wr_lt hlt, ok_bind],
    ⟨by simpa using h.adjLen, h.varsLen⟩, rfl, rfl, rfl, rfl, rfl, rfl, ?_⟩
  intro a b ha hb
  have hlt' : a * g.size + b < g.adj.length := by rw [h.adjLen]; exact flat_lt ha hb
  unfold val
  simp only
  rw [List.getD_eq_getElem _ _ (by simpa using hlt'), List.getD_eq_getElem _ _ hlt', List.getElem_set]
  by_cases e : a = i ∧ b = j
  · rw [if_pos e, if_pos ((flat_inj hj hb).mpr ⟨e.1.symm, e.2.symm⟩)]
  · rw [if_neg e, if_neg (fun x => e ⟨((flat_inj hj hb).mp x).1.symm, ((flat_inj hj hb).mp x).2.symm⟩)]

/-- same nodes -/
structure Same (g g' : Graph) : Prop where
  wf : Wf g'
  size : g'.size = g.size
  vars : g'.vars = g.vars
  top : g'.top = g.top
  minId : g'.minId = g.minId
  maxId : g'.maxId = g.maxId
  ind : g'.varInd = none

theorem Same.copy {g : Graph} (h : Wf g) : Same g g.copy := ⟨⟨h.adjLen, h.varsLen⟩, rfl, rfl, rfl, rfl, rfl, rfl⟩

theorem Same.set {g g1 : Graph} (h : Same g g1) {i j : Nat} (hi : i < g.size) (hj : j < g.size) (x : Bool) :
    ∃ g', g1.setAdjm i j x = ok g' ∧ Same g g' ∧
      ∀ a b, a < g.size → b < g.size → g'.val a b = if a = i ∧ b = j then x else g1.val a b := by
  obtain ⟨g', h1, h2, h3, h4, h5, h6, h7, h8, h9⟩ := setAdjm_eq h.wf (by rw [h.size]; exact hi) (by rw [h.size]; exact hj) x
  exact ⟨g', h1, ⟨h2, h3.trans h.size, h4.trans h.vars, h5.trans h.top, h6.trans h.minId, h7.trans h.maxId, h8.trans h.ind⟩,
    fun a b ha hb => h9 a b (by rw [h.size]; exact ha) (by rw [h.size]; exact hb)⟩

theorem makeUndirected_eq {g : Graph} (h : Wf g) :
    ∃ gu, g.makeUndirected = ok gu ∧ Same g gu ∧
      ∀ a b, a < g.size → b < g.size → gu.val a b = (g.val a b || g.val b a) := by
  obtain ⟨gu, h1, h2, h3⟩ := loop_inv (n := g.size) (f := fun i gu =>
      loop g.size (fun j gu => do
        let a ← g.adjm i j
        let b ← g.adjm j i
        setAdjm gu i j (a || b)) gu) (s := g.copy)
    (fun i gu => Same g gu ∧ ∀ a b, a < g.size → b < g.size →
      gu.val a b = if a < i then (g.val a b || g.val b a) else g.val a b)
    ⟨Same.copy h, by intro a b _ _; simp; rfl⟩
    (by
      rintro i hi gu ⟨hs, hv⟩
      obtain ⟨g2, k1, k2, k3⟩ := loop_inv (n := g.size) (f := fun j gu => do
          let a ← g.adjm i j
          let b ← g.adjm j i
          setAdjm gu i j (a || b)) (s := gu)
        (fun j gu => Same g gu ∧ ∀ a b, a < g.size → b < g.size →
          gu.val a b = if a < i ∨ (a = i ∧ b < j) then (g.val a b || g.val b a) else g.val a b)
        ⟨hs, by intro a b ha hb; rw [hv a b ha hb]; simp⟩
        (by
          rintro j hj gu ⟨hs, hv⟩
          simp only [adjm_eq h hi hj, adjm_eq h hj hi, ok_bind]
          obtain ⟨g', m1, m2, m3⟩ := hs.set hi hj (g.val i j || g.val j i)
          refine ⟨g', m1, m2, ?_⟩
          intro a b ha hb
          rw [m3 a b ha hb, hv a b ha hb]
          by_cases e : a = i ∧ b = j
          · obtain ⟨rfl, rfl⟩ := e; simp
          · rw [if_neg e]
            have : (a < i ∨ a = i ∧ b < j) ↔ (a < i ∨ a = i ∧ b < j + 1) := by omega
            simp only [this])
      refine ⟨g2, k1, k2, ?_⟩
      intro a b ha hb
      rw [k3 a b ha hb]
      have : (a < i ∨ a = i ∧ b < g.size) ↔ a < i + 1 := by omega
      simp only [this])
  refine ⟨gu, h1, h2, ?_⟩
  intro a b ha hb
  rw [h3 a b ha hb, if_pos ha]

theorem moralise_eq {g : Graph} (h : Wf g) :
    ∃ gm, g.moralise = ok gm ∧ Same g gm ∧
      ∀ a b, a < g.size → b < g.size →
        (gm.val a b = true ↔ g.val a b = true ∨ (a ≠ b ∧ ∃ v, v < g.size ∧ g.val a v = true ∧ g.val b v = true)) := by
  obtain ⟨gm, h1, h2, h3⟩ := loop_inv (n := g.size) (f := fun v gm =>
    loop g.size (fun i gm => do
      let p ← g.adjm i v
      if p then
        loop (g.size - (i + 1)) (fun j' gm => do
          let j := i + 1 + j'
          let q ← g.adjm j v
          let a ← adjm gm i j
          let gm ← setAdjm gm i j (a || q)
          let b ← gm.adjm j i
          gm.setAdjm j i (b || q)) gm
      else ok gm) gm) (s := g.copy)
    (fun v gm => Same g gm ∧ ∀ a b, a < g.size → b < g.size →
      (gm.val a b = true ↔ g.val a b = true ∨ (a ≠ b ∧ ∃ w, w < v ∧ g.val a w = true ∧ g.val b w = true)))
    ⟨Same.copy h, by intro a b _ _; simp; rfl⟩
    (by
      rintro v hv gm ⟨hs, hval⟩
      obtain ⟨g2, k1, k2, k3⟩ := loop_inv (n := g.size) (f := fun i gm => do
          let p ← g.adjm i v
          if p then
            loop (g.size - (i + 1)) (fun j' gm => do
              let j := i + 1 + j'
              let q ← g.adjm j v
              let a ← adjm gm i j
              let gm ← setAdjm gm i j (a || q)
              let b ← gm.adjm j i
              gm.setAdjm j i (b || q)) gm
          else ok gm) (s := gm)
        (fun i gm => Same g gm ∧ ∀ a b, a < g.size → b < g.size →
          (gm.val a b = true ↔ g.val a b = true ∨ (a ≠ b ∧ (∃ w, w < v ∧ g.val a w = true ∧ g.val b w = true)) ∨
            (a ≠ b ∧ (a < i ∨ b < i) ∧ g.val a v = true ∧ g.val b v = true)))
        ⟨hs, by intro a b ha hb; rw [hval a b ha hb]; simp⟩
        (by
          rintro i hi gm ⟨hs, hval⟩
          simp only [adjm_eq h hi hv, ok_bind]
          by_cases hp : g.val i v = true
          · rw [if_pos hp]
            obtain ⟨g3, l1, l2, l3⟩ := loop_inv (n := g.size - (i + 1)) (f := fun j' gm => do
                let j := i + 1 + j'
                let q ← g.adjm j v
                let a ← adjm gm i j
                let gm ← setAdjm gm i j (a || q)
                let b ← gm.adjm j i
                gm.setAdjm j i (b || q)) (s := gm)
              (fun j' gm' => Same g gm' ∧ ∀ a b, a < g.size → b < g.size →
                (gm'.val a b = true ↔ gm.val a b = true ∨
                  (a = i ∧ i < b ∧ b < i + 1 + j' ∧ g.val b v = true) ∨ (b = i ∧ i < a ∧ a < i + 1 + j' ∧ g.val a v = true)))
              ⟨hs, by
                intro a b _ _
                constructor
                · intro h; exact Or.inl h
                · rintro (h | h | h)
                  · exact h
                  · omega
                  · omega⟩
              (by
                rintro j' hj' gm1 ⟨hs1, hv1⟩
                have hj : i + 1 + j' < g.size := by omega
                have hij : i ≠ i + 1 + j' := by omega
                simp only [adjm_eq h hj hv, ok_bind]
                rw [adjm_eq hs1.wf (by rw [hs1.size]; exact hi) (by rw [hs1.size]; exact hj), ok_bind]
                obtain ⟨g', m1, m2, m3⟩ := hs1.set hi hj (gm1.val i (i + 1 + j') || g.val (i + 1 + j') v)
                rw [m1, ok_bind, adjm_eq m2.wf (by rw [m2.size]; exact hj) (by rw [m2.size]; exact hi), ok_bind]
                obtain ⟨g'', n1, n2, n3⟩ := m2.set hj hi (g'.val (i + 1 + j') i || g.val (i + 1 + j') v)
                refine ⟨g'', n1, n2, ?_⟩
                intro a b ha hb
                rw [n3 a b ha hb]
                by_cases e1 : a = i + 1 + j' ∧ b = i
                · obtain ⟨rfl, rfl⟩ := e1
                  rw [if_pos ⟨rfl, rfl⟩, m3 _ _ hj hi, if_neg (by omega), Bool.or_eq_true, hv1 _ _ hj hi]
                  constructor
                  · rintro ((h | h | h) | h)
                    · exact Or.inl h
                    · omega
                    · omega
                    · exact Or.inr (Or.inr ⟨rfl, by omega, by omega, h⟩)
                  · rintro (h | h | h)
                    · exact Or.inl (Or.inl h)
                    · omega
                    · exact Or.inr h.2.2.2
                · rw [if_neg e1, m3 a b ha hb]
                  by_cases e2 : a = i ∧ b = i + 1 + j'
                  · obtain ⟨rfl, rfl⟩ := e2
                    rw [if_pos ⟨rfl, rfl⟩, Bool.or_eq_true, hv1 _ _ hi hj]
                    constructor
                    · rintro ((h | h | h) | h)
                      · exact Or.inl h
                      · omega
                      · omega
                      · exact Or.inr (Or.inl ⟨rfl, by omega, by omega, h⟩)
                    · rintro (h | h | h)
                      · exact Or.inl (Or.inl h)
                      · exact Or.inr h.2.2.2
                      · omega
                  · rw [if_neg e2, hv1 a b ha hb]
                    constructor
                    · rintro (h | h | h)
                      · exact Or.inl h
                      · exact Or.inr (Or.inl ⟨h.1, h.2.1, by omega, h.2.2.2⟩)
                      · exact Or.inr (Or.inr ⟨h.1, h.2.1, by omega, h.2.2.2⟩)
                    · rintro (h | h | h)
                      · exact Or.inl h
                      · exact Or.inr (Or.inl ⟨h.1, h.2.1, by omega, h.2.2.2⟩)
                      · exact Or.inr (Or.inr ⟨h.1, h.2.1, by omega, h.2.2.2⟩))
            refine ⟨g3, l1, l2, ?_⟩
            intro a b ha hb
            rw [l3 a b ha hb, hval a b ha hb]
            constructor
            · rintro ((h | h | h) | h | h)
              · exact Or.inl h
              · exact Or.inr (Or.inl h)
              · exact Or.inr (Or.inr ⟨h.1, by omega, h.2.2⟩)
              · exact Or.inr (Or.inr ⟨by omega, by omega, by rw [h.1]; exact hp, h.2.2.2⟩)
              · exact Or.inr (Or.inr ⟨by omega, by omega, h.2.2.2, by rw [h.1]; exact hp⟩)
            · rintro (h | h | ⟨hne, hlt, hav, hbv⟩)
              · exact Or.inl (Or.inl h)
              · exact Or.inl (Or.inr (Or.inl h))
              · by_cases hsmall : a < i ∨ b < i
                · exact Or.inl (Or.inr (Or.inr ⟨hne, hsmall, hav, hbv⟩))
                · by_cases hai : a = i
                  · exact Or.inr (Or.inl ⟨hai, by omega, by omega, hbv⟩)
                  · exact Or.inr (Or.inr ⟨by omega, by omega, by omega, hav⟩)
          · rw [if_neg hp]
            refine ⟨gm, rfl, hs, ?_⟩
            intro a b ha hb
            rw [hval a b ha hb]
            constructor
            · rintro (h | h | h)
              · exact Or.inl h
              · exact Or.inr (Or.inl h)
              · exact Or.inr (Or.inr ⟨h.1, by omega, h.2.2⟩)
            · rintro (h | h | ⟨hne, hlt, hav, hbv⟩)
              · exact Or.inl h
              · exact Or.inr (Or.inl h)
              · refine Or.inr (Or.inr ⟨hne, ?_, hav, hbv⟩)
                by_contra hcon
                have : a = i ∨ b = i := by omega
                rcases this with rfl | rfl
                · exact hp hav
                · exact hp hbv)
      refine ⟨g2, k1, k2, ?_⟩
      intro a b ha hb
      rw [k3 a b ha hb]
      constructor
      · rintro (h | ⟨hne, w, hw, h⟩ | ⟨hne, _, h⟩)
        · exact Or.inl h
        · exact Or.inr ⟨hne, w, by omega, h⟩
        · exact Or.inr ⟨hne, v, by omega, h⟩
      · rintro (h | ⟨hne, w, hw, h⟩)
        · exact Or.inl h
        · by_cases hwv : w = v
          · subst hwv; exact Or.inr (Or.inr ⟨hne, Or.inl ha, h⟩)
          · exact Or.inr (Or.inl ⟨hne, w, by omega, h⟩))
  exact ⟨gm, h1, h2, h3⟩

/-- the interface condition for two variables -/
def Ifc (oldOut out : Nat → Bool) (u v : Nat) : Bool := (oldOut u && oldOut v) || (out u && out v)

theorem addInterfaceEdges_eq {oldOut out : Nat → Bool} {g : Graph} (h : Wf g) {nodes : List Nat}
    (hn : g.vars = nodes.map some) :
    ∃ gi, g.addInterfaceEdges oldOut out = ok gi ∧ Same g gi ∧
      ∀ a b, a < g.size → b < g.size →
        (gi.val a b = true ↔ g.val a b = true ∨ (a ≠ b ∧ ∃ u v, nodes[a]? = some u ∧ nodes[b]? = some v ∧
          Ifc oldOut out u v = true)) := by
  have hlen : nodes.length = g.size := by have := h.varsLen; rw [hn] at this; simpa using this
  have hsymm : ∀ u v, Ifc oldOut out u v = Ifc oldOut out v u := by
    intro u v; unfold Ifc; rw [Bool.and_comm (oldOut u), Bool.and_comm (out u)]
  have hnode : ∀ a (ha : a < g.size), rd g.vars a = ok (some (nodes[a]'(by omega))) := by
    intro a ha
    rw [rd_eq_ok, hn]; simp [hlen, ha]
  obtain ⟨gi, h1, h2, h3⟩ := loop_inv (n := g.size) (f := fun i gi =>
    loop (g.size - (i + 1)) (fun j' gi => do
      let j := i + 1 + j'
      let v1 ← rd g.vars i
      let v2 ← rd g.vars j
      match v1, v2 with
      | some v1, some v2 =>
        if (oldOut v1 && oldOut v2) || (out v1 && out v2) then do
          let gi ← setAdjm gi i j true
          gi.setAdjm j i true
        else ok gi
      | _, _ => ub) gi) (s := g.copy)
    (fun i gi => Same g gi ∧ ∀ a b, a < g.size → b < g.size →
      (gi.val a b = true ↔ g.val a b = true ∨ (a ≠ b ∧ (a < i ∨ b < i) ∧ ∃ u v, nodes[a]? = some u ∧ nodes[b]? = some v ∧
          Ifc oldOut out u v = true)))
    ⟨Same.copy h, by intro a b _ _; simp; rfl⟩
    (by
      rintro i hi gi ⟨hs, hval⟩
      obtain ⟨g2, k1, k2, k3⟩ := loop_inv (n := g.size - (i + 1)) (f := fun j' gi => do
          let j := i + 1 + j'
          let v1 ← rd g.vars i
          let v2 ← rd g.vars j
          match v1, v2 with
          | some v1, some v2 =>
            if (oldOut v1 && oldOut v2) || (out v1 && out v2) then do
              let gi ← setAdjm gi i j true
              gi.setAdjm j i true
            else ok gi
          | _, _ => ub) (s := gi)
        (fun j' gi' => Same g gi' ∧ ∀ a b, a < g.size → b < g.size →
          (gi'.val a b = true ↔ gi.val a b = true ∨
            (((a = i ∧ i < b ∧ b < i + 1 + j') ∨ (b = i ∧ i < a ∧ a < i + 1 + j')) ∧
              ∃ u v, nodes[a]? = some u ∧ nodes[b]? = some v ∧ Ifc oldOut out u v = true)))
        ⟨hs, by
          intro a b _ _
          constructor
          · intro h; exact Or.inl h
          · rintro (h | h)
            · exact h
            · omega⟩
        (by
          rintro j' hj' g1 ⟨hs1, hv1⟩
          have hj : i + 1 + j' < g.size := by omega
          simp only [hnode i hi, hnode _ hj, ok_bind]
          have hif : (oldOut (nodes[i]'(by omega)) && oldOut (nodes[i + 1 + j']'(by omega)) ||
              out (nodes[i]'(by omega)) && out (nodes[i + 1 + j']'(by omega)))
              = Ifc oldOut out (nodes[i]'(by omega)) (nodes[i + 1 + j']'(by omega)) := rfl
          rw [hif]
          by_cases hc : Ifc oldOut out (nodes[i]'(by omega)) (nodes[i + 1 + j']'(by omega)) = true
          · rw [if_pos hc]
            obtain ⟨g', m1, m2, m3⟩ := hs1.set hi hj true
            obtain ⟨g'', n1, n2, n3⟩ := m2.set hj hi true
            refine ⟨g'', by rw [m1, ok_bind, n1], n2, ?_⟩
            intro a b ha hb
            rw [n3 a b ha hb]
            by_cases e1 : a = i + 1 + j' ∧ b = i
            · rw [if_pos e1]
              obtain ⟨rfl, rfl⟩ := e1
              refine ⟨fun _ => Or.inr ⟨Or.inr ⟨rfl, by omega, by omega⟩, _, _,
                List.getElem?_eq_getElem (by omega), List.getElem?_eq_getElem (by omega), (hsymm _ _).trans hc⟩, fun _ => rfl⟩
            · rw [if_neg e1, m3 a b ha hb]
              by_cases e2 : a = i ∧ b = i + 1 + j'
              · rw [if_pos e2]
                obtain ⟨rfl, rfl⟩ := e2
                exact ⟨fun _ => Or.inr ⟨Or.inl ⟨rfl, by omega, by omega⟩, _, _,
                  List.getElem?_eq_getElem (by omega), List.getElem?_eq_getElem (by omega), hc⟩, fun _ => rfl⟩
              · rw [if_neg e2, hv1 a b ha hb]
                have : ((a = i ∧ i < b ∧ b < i + 1 + j') ∨ (b = i ∧ i < a ∧ a < i + 1 + j')) ↔
                    ((a = i ∧ i < b ∧ b < i + 1 + (j' + 1)) ∨ (b = i ∧ i < a ∧ a < i + 1 + (j' + 1))) := by omega
                rw [this]
          · rw [if_neg hc]
            refine ⟨g1, rfl, hs1, ?_⟩
            intro a b ha hb
            rw [hv1 a b ha hb]
            constructor
            · rintro (h | ⟨h, h'⟩)
              · exact Or.inl h
              · exact Or.inr ⟨by omega, h'⟩
            · rintro (h | ⟨h, u, v, hu, hv, hI⟩)
              · exact Or.inl h
              · refine Or.inr ⟨?_, u, v, hu, hv, hI⟩
                by_contra hcon
                have : (a = i ∧ b = i + 1 + j') ∨ (b = i ∧ a = i + 1 + j') := by omega
                rcases this with ⟨rfl, rfl⟩ | ⟨rfl, rfl⟩
                · obtain ⟨_, rfl⟩ := List.getElem?_eq_some_iff.mp hu
                  obtain ⟨_, rfl⟩ := List.getElem?_eq_some_iff.mp hv
                  exact hc hI
                · obtain ⟨_, rfl⟩ := List.getElem?_eq_some_iff.mp hu
                  obtain ⟨_, rfl⟩ := List.getElem?_eq_some_iff.mp hv
                  rw [hsymm] at hI
                  exact hc hI)
      refine ⟨g2, k1, k2, ?_⟩
      intro a b ha hb
      rw [k3 a b ha hb, hval a b ha hb]
      constructor
      · rintro ((h | ⟨h1, h2, h3⟩) | ⟨h1, h2⟩)
        · exact Or.inl h
        · exact Or.inr ⟨h1, by omega, h3⟩
        · exact Or.inr ⟨by omega, by omega, h2⟩
      · rintro (h | ⟨h1, h2, h3⟩)
        · exact Or.inl (Or.inl h)
        · by_cases hsm : a < i ∨ b < i
          · exact Or.inl (Or.inr ⟨h1, hsm, h3⟩)
          · exact Or.inr ⟨by omega, h3⟩)
  refine ⟨gi, h1, h2, ?_⟩
  intro a b ha hb
  rw [h3 a b ha hb]
  constructor
  · rintro (h | ⟨h1, _, h3⟩)
    · exact Or.inl h
    · exact Or.inr ⟨h1, h3⟩
  · rintro (h | ⟨h1, h3⟩)
    · exact Or.inl h
    · exact Or.inr ⟨h1, Or.inl ha, h3⟩

/-! ## Refinement to (nodes, edges) -/

/-- the graph `g` of capacity `n` holds the nodes `nodes` and the edges `edges` -/
structure Holds (g : Graph) (n : Nat) (nodes : List Nat) (edges : List (Nat × Nat)) : Prop where
  wf : Wf g
  size : g.size = n
  top : g.top = nodes.length
  le : nodes.length ≤ n
  vars : g.vars = nodes.map some ++ List.replicate (n - nodes.length) none
  nodup : nodes.Nodup
  pos : ∀ v ∈ nodes, 0 < v
  val : ∀ i j, i < n → j < n → (g.val i j = true ↔ ∃ u v, nodes[i]? = some u ∧ nodes[j]? = some v ∧ (u, v) ∈ edges)
  range : ∀ v ∈ nodes, g.minId ≤ v ∧ v ≤ g.maxId
  nil : nodes = [] → g.minId = 0 ∧ g.maxId = 0
  ext : nodes ≠ [] → g.minId ∈ nodes ∧ g.maxId ∈ nodes
  ind : ∀ t, g.varInd = some t → t.length = g.maxId - g.minId + 1 ∧ (∀ i v, nodes[i]? = some v → t[v - g.minId]? = some i) ∧
    (nodes ≠ [] → ∀ k ∈ t, k < n)

theorem Holds.new (n : Nat) : Holds (Graph.new n) n [] [] := by
  refine ⟨⟨by simp [Graph.new], by simp [Graph.new]⟩, rfl, rfl, Nat.zero_le _, by simp [Graph.new], by simp, by simp, ?_,
    by simp, fun _ => ⟨rfl, rfl⟩, by simp, by simp [Graph.new]⟩
  intro i j hi hj
  simp [Graph.val, Graph.new, flat_lt hi hj, List.getD_eq_getElem?_getD]

theorem buildIndex_holds {g : Graph} {n : Nat} {nodes : List Nat} {edges : List (Nat × Nat)} (h : Holds g n nodes edges) :
    ∃ t, g.buildIndex = ok { g with varInd := some t } ∧ Holds { g with varInd := some t } n nodes edges := by
  have hnode : ∀ i (hi : i < nodes.length), rd g.vars i = ok (some nodes[i]) := by
    intro i hi; rw [rd_eq_ok, h.vars, List.getElem?_append_left (by simpa using hi)]; simp [hi]
  obtain ⟨t, ht, hlen, hP, hbd⟩ := loop_inv (n := g.top) (f := fun i (ind : List Nat) => do
      let v ← rd g.vars i
      match v with
      | none => ub
      | some v => if v < g.minId then ub else wr ind (v - g.minId) i) (s := List.replicate (g.maxId - g.minId + 1) 0)
    (fun i (ind : List Nat) => ind.length = g.maxId - g.minId + 1 ∧ (∀ k v, k < i → nodes[k]? = some v → ind[v - g.minId]? = some k) ∧
      (nodes ≠ [] → ∀ k ∈ ind, k < n))
    ⟨by simp, fun k v hk => by omega, fun hne k hk => by
      have := List.length_pos_iff.mpr hne
      have := h.le
      rw [List.mem_replicate] at hk; omega⟩
    (by
      rintro i hi ind ⟨hl, hind, hbd⟩
      rw [h.top] at hi
      have hr := h.range _ (List.getElem_mem hi)
      simp only [hnode i hi, ok_bind]
      rw [if_neg (by omega), wr_lt (by omega)]
      refine ⟨_, rfl, by simpa using hl, ?_, ?_⟩
      rotate_left
      · intro hne k hk
        rcases List.mem_or_eq_of_mem_set hk with hk | hk
        · exact hbd hne k hk
        · have := h.le; omega
      intro k v hk hv
      rw [List.getElem?_set]
      by_cases hki : k = i
      · subst hki
        obtain ⟨_, rfl⟩ := List.getElem?_eq_some_iff.mp hv
        rw [if_pos rfl, if_pos (by omega)]
      · have hne : nodes[i] ≠ v := by
          rintro rfl
          apply hki
          exact (List.getElem?_inj (List.getElem?_eq_some_iff.mp hv).1 h.nodup).mp (hv.trans (List.getElem?_eq_getElem hi).symm)
        have hrv := h.range v (List.mem_of_getElem? hv)
        rw [if_neg (by omega)]
        exact hind k v (by omega) hv)
  refine ⟨t, ?_, ⟨⟨h.wf.adjLen, h.wf.varsLen⟩, h.size, h.top, h.le, h.vars, h.nodup, h.pos, h.val, h.range, h.nil, h.ext, ?_⟩⟩
  · have : g.buildIndex = (loop g.top (fun i (ind : List Nat) => do
      let v ← rd g.vars i
      match v with
      | none => ub
      | some v => if v < g.minId then ub else wr ind (v - g.minId) i) (List.replicate (g.maxId - g.minId + 1) 0)).bind
        (fun ind => ok { g with varInd := some ind }) := rfl
    rw [this, ht]; rfl
  · intro t' ht'
    cases ht'
    exact ⟨hlen, fun i v hv => hP i v (by rw [h.top]; exact (List.getElem?_eq_some_iff.mp hv).1) hv, hbd⟩

/-- looking up a node of the graph, with the index table present -/
theorem lookup_mem {g : Graph} {n : Nat} {nodes : List Nat} {edges : List (Nat × Nat)} (h : Holds g n nodes edges)
    {t : List Nat} (ht : g.varInd = some t) {i v : Nat} (hv : nodes[i]? = some v) : g.lookup t v = ok (some i) := by
  have hr := h.range v (List.mem_of_getElem? hv)
  have hi := (List.getElem?_eq_some_iff.mp hv).1
  unfold lookup
  rw [if_neg (by omega), rd_eq_ok.mpr ((h.ind t ht).2.1 i v hv), ok_bind]
  have : rd g.vars i = ok (some v) := by
    rw [rd_eq_ok, h.vars, List.getElem?_append_left (by simpa using hi)]; simp [hv]
  rw [this, ok_bind]
  simp

/-- looking up a variable that is not in the graph but whose identity is in the range -/
theorem lookup_not_mem {g : Graph} {n : Nat} {nodes : List Nat} {edges : List (Nat × Nat)} (h : Holds g n nodes edges)
    {t : List Nat} (ht : g.varInd = some t) {v : Nat} (hv : v ∉ nodes) (hmin : g.minId ≤ v) (hmax : v ≤ g.maxId)
    (hval : ∀ k ∈ t, k < n) : g.lookup t v = ok none := by
  unfold lookup
  have hlt : v - g.minId < t.length := by rw [(h.ind t ht).1]; omega
  rw [if_neg (by omega), rd_lt hlt, ok_bind]
  have hk := hval _ (List.getElem_mem hlt)
  rw [rd_lt (by rw [h.wf.varsLen, h.size]; exact hk), ok_bind]
  congr 1
  rw [if_neg]
  intro e
  have e' : g.vars[t[v - g.minId]]? = some (some v) := by
    rw [List.getElem?_eq_getElem (by rw [h.wf.varsLen, h.size]; exact hk)]; exact congrArg some (by simpa using e)
  rw [h.vars, List.getElem?_append] at e'
  split at e'
  · simp at e'; exact hv (List.mem_of_getElem? e')
  · rw [List.getElem?_replicate] at e'
    split at e' <;> simp at e'

theorem index_mem {g : Graph} {n : Nat} {nodes : List Nat} {edges : List (Nat × Nat)} (h : Holds g n nodes edges)
    {i v : Nat} (hv : nodes[i]? = some v) : ∃ g', g.index v = ok (some i, g') ∧ Holds g' n nodes edges ∧ g'.adj = g.adj := by
  unfold index
  cases ht : g.varInd with
  | some t =>
    simp only [ok_bind, ht, Option.getD_some]
    exact ⟨g, by rw [lookup_mem h ht hv, ok_bind], h, rfl⟩
  | none =>
    obtain ⟨t, h1, h2⟩ := buildIndex_holds h
    simp only [h1, ok_bind, Option.getD_some]
    exact ⟨_, by rw [lookup_mem h2 rfl hv, ok_bind], h2, rfl⟩

theorem linked_eq {g : Graph} {n : Nat} {nodes : List Nat} {edges : List (Nat × Nat)} (h : Holds g n nodes edges)
    {u v : Nat} (hu : u ∈ nodes) (hv : v ∈ nodes) :
    ∃ b g', g.linked u v = ok (b, g') ∧ (b = true ↔ (u, v) ∈ edges) ∧ Holds g' n nodes edges := by
  obtain ⟨i, hi⟩ := List.getElem?_of_mem hu
  obtain ⟨j, hj⟩ := List.getElem?_of_mem hv
  obtain ⟨g1, a1, a2, _⟩ := index_mem h hi
  obtain ⟨g2, b1, b2, _⟩ := index_mem a2 hj
  have hil : i < n := lt_of_lt_of_le (List.getElem?_eq_some_iff.mp hi).1 h.le
  have hjl : j < n := lt_of_lt_of_le (List.getElem?_eq_some_iff.mp hj).1 h.le
  unfold linked
  simp only [a1, ok_bind, b1]
  rw [adjm_eq b2.wf (by rw [b2.size]; exact hil) (by rw [b2.size]; exact hjl), ok_bind]
  refine ⟨_, _, rfl, ?_, b2⟩
  rw [b2.val i j hil hjl]
  constructor
  · rintro ⟨u', v', hu', hv', he⟩
    rw [hi] at hu'; rw [hj] at hv'
    cases hu'; cases hv'; exact he
  · intro he; exact ⟨u, v, hi, hj, he⟩

theorem addNode_holds {g : Graph} {n : Nat} {nodes : List Nat} {edges : List (Nat × Nat)} (h : Holds g n nodes edges)
    {v : Nat} (hv : v ∉ nodes) (hpos : 0 < v) (hroom : nodes.length < n) (he : ∀ e ∈ edges, e.1 ≠ v ∧ e.2 ≠ v) :
    ∃ g', g.addNode v = ok (0, g') ∧ Holds g' n (nodes ++ [v]) edges := by
  unfold addNode
  have hne : ¬ g.top = g.size := by rw [h.top, h.size]; omega
  rw [if_neg hne, wr_lt (by rw [h.wf.varsLen, h.size, h.top]; exact hroom), ok_bind]
  set g1 : Graph := { g with
      vars := g.vars.set g.top (some v)
      top := g.top + 1
      minId := if v < g.minId ∨ g.minId = 0 then v else g.minId
      maxId := if v > g.maxId ∨ g.maxId = 0 then v else g.maxId
      varInd := none } with hg1
  have hH : Holds g1 n (nodes ++ [v]) edges := by
    refine ⟨⟨h.wf.adjLen, by simp [hg1, h.wf.varsLen]⟩, h.size, by simp [hg1, h.top], by simp; omega, ?_, ?_, ?_, ?_, ?_, by simp,
      ?_, by simp [hg1]⟩
    · simp only [hg1]
      rw [h.vars, h.top, List.set_append_right _ _ (by simp), List.length_map, Nat.sub_self]
      have : List.replicate (n - nodes.length) (none : Option Nat) = none :: List.replicate (n - (nodes ++ [v]).length) none := by
        rw [← List.replicate_succ]; congr 1; simp; omega
      rw [this, List.set_cons_zero]; simp
    · rw [List.nodup_append]
      exact ⟨h.nodup, by simp, by rintro a ha b hb rfl; simp at hb; exact hv (hb ▸ ha)⟩
    · intro u hu
      rcases List.mem_append.mp hu with hu | hu
      · exact h.pos u hu
      · have : u = v := by simpa using hu
        omega
    · intro i j hi hj
      have e : g1.val i j = g.val i j := rfl
      rw [e, h.val i j hi hj]
      constructor
      · rintro ⟨a, b, ha, hb, hab⟩
        refine ⟨a, b, ?_, ?_, hab⟩
        · rw [List.getElem?_append_left (List.getElem?_eq_some_iff.mp ha).1]; exact ha
        · rw [List.getElem?_append_left (List.getElem?_eq_some_iff.mp hb).1]; exact hb
      · rintro ⟨a, b, ha, hb, hab⟩
        have key : ∀ (k : Nat) (x : Nat), (nodes ++ [v])[k]? = some x → x ≠ v → nodes[k]? = some x := by
          intro k x hk hx
          rw [List.getElem?_append] at hk
          split at hk
          · exact hk
          · rcases Nat.eq_zero_or_pos (k - nodes.length) with h0 | h0
            · rw [h0] at hk; simp at hk; exact absurd hk.symm hx
            · rw [List.getElem?_eq_none (by simp; omega)] at hk; cases hk
        exact ⟨a, b, key i a ha (he _ hab).1, key j b hb (he _ hab).2, hab⟩
    · intro u hu
      have hmin : g1.minId = if v < g.minId ∨ g.minId = 0 then v else g.minId := rfl
      have hmax : g1.maxId = if v > g.maxId ∨ g.maxId = 0 then v else g.maxId := rfl
      rcases List.mem_append.mp hu with hu | hu
      · have := h.range u hu
        have hp := h.ext (List.ne_nil_of_mem hu)
        have hp1 := h.pos _ hp.1
        have hp2 := h.pos _ hp.2
        rw [hmin, hmax]
        constructor
        · split <;> omega
        · split <;> omega
      · have : u = v := by simpa using hu
        subst this
        rw [hmin, hmax]
        constructor
        · split <;> omega
        · split <;> omega
    · intro _
      have hmin : g1.minId = if v < g.minId ∨ g.minId = 0 then v else g.minId := rfl
      have hmax : g1.maxId = if v > g.maxId ∨ g.maxId = 0 then v else g.maxId := rfl
      rw [hmin, hmax]
      by_cases hnil : nodes = []
      · have := h.nil hnil
        simp [this]
      · have hp := h.ext hnil
        constructor
        · split
          · simp
          · exact List.mem_append_left _ hp.1
        · split
          · simp
          · exact List.mem_append_left _ hp.2
  by_cases hfull : g1.top = g1.size
  · obtain ⟨t, h1, h2⟩ := buildIndex_holds hH
    refine ⟨_, ?_, h2⟩
    simp only [hg1] at hfull h1 ⊢
    rw [if_pos hfull, h1, ok_bind]
  · refine ⟨g1, ?_, hH⟩
    simp only [hg1] at hfull ⊢
    rw [if_neg hfull]

theorem addNode_full {g : Graph} {n : Nat} {nodes : List Nat} {edges : List (Nat × Nat)} (h : Holds g n nodes edges)
    (v : Nat) (hfull : nodes.length = n) : g.addNode v = ok (ERANGE, g) := by
  unfold addNode
  rw [if_pos (by rw [h.top, h.size]; exact hfull)]

theorem setAdjm_holds {g : Graph} {n : Nat} {nodes : List Nat} {edges : List (Nat × Nat)} (b2 : Holds g n nodes edges)
    {u v i j : Nat} (hi : nodes[i]? = some u) (hj : nodes[j]? = some v) :
    ∃ g', g.setAdjm i j true = ok g' ∧ Holds g' n nodes (edges ++ [(u, v)]) := by
  have hil : i < n := lt_of_lt_of_le (List.getElem?_eq_some_iff.mp hi).1 b2.le
  have hjl : j < n := lt_of_lt_of_le (List.getElem?_eq_some_iff.mp hj).1 b2.le
  obtain ⟨g3, c1, c2, c3, c4, c5, c6, c7, c8, c9⟩ := setAdjm_eq b2.wf (by rw [b2.size]; exact hil) (by rw [b2.size]; exact hjl) true
  refine ⟨g3, c1, c2, c3.trans b2.size, c5.trans b2.top, b2.le, c4.trans b2.vars, b2.nodup, b2.pos, ?_, by rw [c6, c7]; exact b2.range,
    by rw [c6, c7]; exact b2.nil, by rw [c6, c7]; exact b2.ext, by rw [c6, c7, c8]; exact b2.ind⟩
  intro a b ha hb
  rw [c9 a b (by rw [b2.size]; exact ha) (by rw [b2.size]; exact hb)]
  by_cases e : a = i ∧ b = j
  · obtain ⟨rfl, rfl⟩ := e
    rw [if_pos ⟨rfl, rfl⟩]
    exact ⟨fun _ => ⟨u, v, hi, hj, by simp⟩, fun _ => rfl⟩
  · rw [if_neg e, b2.val a b ha hb]
    constructor
    · rintro ⟨x, y, hx, hy, hxy⟩; exact ⟨x, y, hx, hy, by simp [hxy]⟩
    · rintro ⟨x, y, hx, hy, hxy⟩
      refine ⟨x, y, hx, hy, ?_⟩
      rcases List.mem_append.mp hxy with hxy | hxy
      · exact hxy
      · exfalso
        have hxy' : x = u ∧ y = v := by simpa using hxy
        obtain ⟨rfl, rfl⟩ := hxy'
        apply e
        exact ⟨(List.getElem?_inj (List.getElem?_eq_some_iff.mp hx).1 b2.nodup).mp (hx.trans hi.symm),
          (List.getElem?_inj (List.getElem?_eq_some_iff.mp hy).1 b2.nodup).mp (hy.trans hj.symm)⟩

theorem addChild_holds {g : Graph} {n : Nat} {nodes : List Nat} {edges : List (Nat × Nat)} (h : Holds g n nodes edges)
    {u v : Nat} (hu : u ∈ nodes) (hv : v ∈ nodes) :
    ∃ g', g.addChild u v = ok (0, g') ∧ Holds g' n nodes (edges ++ [(u, v)]) := by
  obtain ⟨i, hi⟩ := List.getElem?_of_mem hu
  obtain ⟨j, hj⟩ := List.getElem?_of_mem hv
  obtain ⟨g1, a1, a2, _⟩ := index_mem h hi
  obtain ⟨g2, b1, b2, _⟩ := index_mem a2 hj
  unfold addChild
  simp only [a1, ok_bind, b1]
  obtain ⟨g3, c1, c2⟩ := setAdjm_holds b2 hi hj
  rw [c1, ok_bind]
  exact ⟨g3, rfl, c2⟩

/-- membership of the edges is all that matters -/
theorem Holds.congr {g : Graph} {n : Nat} {nodes : List Nat} {edges edges' : List (Nat × Nat)} (h : Holds g n nodes edges)
    (he : ∀ u v, u ∈ nodes → v ∈ nodes → ((u, v) ∈ edges ↔ (u, v) ∈ edges')) : Holds g n nodes edges' := by
  refine { h with val := ?_ }
  intro i j hi hj
  rw [h.val i j hi hj]
  constructor
  · rintro ⟨u, v, a, b, c⟩; exact ⟨u, v, a, b, (he u v (List.mem_of_getElem? a) (List.mem_of_getElem? b)).mp c⟩
  · rintro ⟨u, v, a, b, c⟩; exact ⟨u, v, a, b, (he u v (List.mem_of_getElem? a) (List.mem_of_getElem? b)).mpr c⟩

/-- a graph with the same nodes and another matrix -/
theorem Holds.same {g g' : Graph} {n : Nat} {nodes : List Nat} {edges edges' : List (Nat × Nat)} (h : Holds g n nodes edges)
    (hs : Same g g')
    (hv : ∀ i j, i < n → j < n → (g'.val i j = true ↔ ∃ u v, nodes[i]? = some u ∧ nodes[j]? = some v ∧ (u, v) ∈ edges')) :
    Holds g' n nodes edges' :=
  ⟨hs.wf, hs.size.trans h.size, hs.top.trans h.top, h.le, hs.vars.trans h.vars, h.nodup, h.pos, hv,
    by rw [hs.minId, hs.maxId]; exact h.range, by rw [hs.minId, hs.maxId]; exact h.nil, by rw [hs.minId, hs.maxId]; exact h.ext,
    by rw [hs.ind]; intro t ht; cases ht⟩

end Nip.Graph
