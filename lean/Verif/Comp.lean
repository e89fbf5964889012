import Mathlib.Data.Finset.Card
import Mathlib.Data.Finset.Image
import Mathlib.Algebra.BigOperators.Group.Finset.Basic
import Mathlib.Algebra.BigOperators.Group.Finset.Sigma
import Mathlib.Algebra.Order.BigOperators.Group.Finset
import Mathlib.Logic.Relation
import Mathlib.Algebra.BigOperators.Group.Finset.Piecewise

/-! # Components of a graph given by a list of edges, forests, and maximal spanning forests -/

namespace Nip

section comp
variable {α : Type} [DecidableEq α]

/-- A representative of the component of `x` in the graph with the given edges. -/
def comp : List (α × α) → α → α
  | [], x => x
  | (a, b) :: L, x => if comp L x = comp L b then comp L a else comp L x

theorem comp_mono (L g : List (α × α)) (h : ∀ e ∈ L, comp g e.1 = comp g e.2) :
    ∀ x y, comp L x = comp L y → comp g x = comp g y := by
  induction L with
  | nil => intro x y e; rw [show x = y from e]
  | cons e L ih =>
    obtain ⟨a, b⟩ := e
    have ih := ih (fun e he => h e (List.mem_cons_of_mem _ he))
    have hab : comp g a = comp g b := h (a, b) (List.mem_cons_self ..)
    intro x y e
    simp only [comp] at e
    split at e
    · rename_i h1
      split at e
      · rename_i h2; exact (ih _ _ h1).trans (ih _ _ h2).symm
      · exact (ih _ _ h1).trans (hab.symm.trans (ih _ _ e))
    · split at e
      · rename_i h2; exact (ih _ _ e).trans (hab.trans (ih _ _ h2).symm)
      · exact ih _ _ e

theorem comp_edge (L : List (α × α)) : ∀ e ∈ L, comp L e.1 = comp L e.2 := by
  induction L with
  | nil => intro e he; cases he
  | cons e L ih =>
    obtain ⟨a, b⟩ := e
    intro e he
    simp only [comp]
    rcases List.mem_cons.mp he with rfl | he
    · simp
    · have := ih e he
      rw [this]

theorem comp_subset {L g : List (α × α)} (h : ∀ e ∈ L, e ∈ g) (x y : α) (hxy : comp L x = comp L y) : comp g x = comp g y :=
  comp_mono L g (fun e he => comp_edge g e (h e he)) x y hxy

theorem comp_iff (L : List (α × α)) (x y : α) : comp L x = comp L y ↔ Relation.EqvGen (fun a b => (a, b) ∈ L) x y := by
  constructor
  · induction L generalizing x y with
    | nil => intro e; rw [show x = y from e]; exact Relation.EqvGen.refl _
    | cons e L ih =>
      obtain ⟨a, b⟩ := e
      have up : ∀ u v, comp L u = comp L v → Relation.EqvGen (fun c d => (c, d) ∈ (a, b) :: L) u v := fun u v h =>
        Relation.EqvGen.mono (fun c d h => List.mem_cons_of_mem (a, b) h) u v (ih u v h)
      have hab : Relation.EqvGen (fun c d => (c, d) ∈ (a, b) :: L) a b := Relation.EqvGen.rel _ _ (List.mem_cons_self ..)
      intro e
      simp only [comp] at e
      split at e
      · rename_i h1
        split at e
        · rename_i h2; exact (up _ _ h1).trans _ _ _ ((up _ _ h2).symm)
        · exact (up _ _ h1).trans _ _ _ ((hab.symm).trans _ _ _ (up _ _ e))
      · split at e
        · rename_i h2; exact (up _ _ e).trans _ _ _ (hab.trans _ _ _ ((up _ _ h2).symm))
        · exact up _ _ e
  · intro h
    induction h with
    | rel a b h => exact comp_edge L (a, b) h
    | refl _ => rfl
    | symm _ _ _ ih => exact ih.symm
    | trans _ _ _ _ _ ih1 ih2 => exact ih1.trans ih2

/-- every edge joined two components when it was added (the list is read from its end) -/
def IsForest : List (α × α) → Prop
  | [] => True
  | (a, b) :: L => comp L a ≠ comp L b ∧ IsForest L

/-- representatives stay in a set closed under the edges -/
theorem comp_mem (L : List (α × α)) (N : Finset α) (h : ∀ e ∈ L, e.1 ∈ N ∧ e.2 ∈ N) : ∀ x, x ∈ N → comp L x ∈ N := by
  induction L with
  | nil => intro x hx; exact hx
  | cons e L ih =>
    obtain ⟨a, b⟩ := e
    have ih := ih (fun e he => h e (List.mem_cons_of_mem _ he))
    intro x hx
    simp only [comp]
    split
    · exact ih _ (h (a, b) (List.mem_cons_self ..)).1
    · exact ih _ hx

theorem comp_not_mem (L : List (α × α)) (N : Finset α) (h : ∀ e ∈ L, e.1 ∈ N ∧ e.2 ∈ N) : ∀ x, x ∉ N → comp L x = x := by
  induction L with
  | nil => intro x hx; rfl
  | cons e L ih =>
    obtain ⟨a, b⟩ := e
    have hm := comp_mem L N (fun e he => h e (List.mem_cons_of_mem _ he))
    have ih := ih (fun e he => h e (List.mem_cons_of_mem _ he))
    intro x hx
    simp only [comp]
    rw [ih x hx, if_neg]
    intro e
    exact hx (e ▸ hm b (h (a, b) (List.mem_cons_self ..)).2)

/-- number of components among the nodes `N` -/
def classes (N : Finset α) (L : List (α × α)) : Nat := (N.image (comp L)).card

theorem comp_cons (a b : α) (L : List (α × α)) (x : α) :
    comp ((a, b) :: L) x = if comp L x = comp L b then comp L a else comp L x := rfl

theorem comp_comp (L : List (α × α)) (x : α) : comp L (comp L x) = comp L x := by
  induction L generalizing x with
  | nil => rfl
  | cons e L ih =>
    obtain ⟨a, b⟩ := e
    by_cases h : comp L x = comp L b
    · have e1 : comp ((a, b) :: L) x = comp L a := by rw [comp_cons, if_pos h]
      rw [e1, comp_cons, ih a]
      split
      · rfl
      · rfl
    · have e1 : comp ((a, b) :: L) x = comp L x := by rw [comp_cons, if_neg h]
      rw [e1, comp_cons, ih x, if_neg h]

theorem forest_classes (N : Finset α) (L : List (α × α)) (h : ∀ e ∈ L, e.1 ∈ N ∧ e.2 ∈ N) (hf : IsForest L) :
    classes N L + L.length = N.card := by
  induction L with
  | nil =>
    unfold classes
    have : N.image (comp ([] : List (α × α))) = N := by
      ext x; simp [comp]
    rw [this]; simp
  | cons e L ih =>
    obtain ⟨a, b⟩ := e
    have hN := h (a, b) (List.mem_cons_self ..)
    have ih := ih (fun e he => h e (List.mem_cons_of_mem _ he)) hf.2
    have him : N.image (comp ((a, b) :: L)) = (N.image (comp L)).erase (comp L b) := by
      ext x
      simp only [Finset.mem_image, Finset.mem_erase, comp]
      constructor
      · rintro ⟨y, hy, rfl⟩
        split
        · exact ⟨hf.1, a, hN.1, rfl⟩
        · rename_i hne; exact ⟨hne, y, hy, rfl⟩
      · rintro ⟨hne, y, hy, rfl⟩
        exact ⟨y, hy, if_neg hne⟩
    have hb : comp L b ∈ N.image (comp L) := Finset.mem_image_of_mem _ hN.2
    unfold classes at ih ⊢
    rw [him, Finset.card_erase_of_mem hb, List.length_cons]
    have := Finset.card_pos.mpr ⟨_, hb⟩
    omega

/-- fewer components when more is connected -/
theorem classes_le (N : Finset α) (L g : List (α × α))
    (h : ∀ e ∈ L, comp g e.1 = comp g e.2) : classes N g ≤ classes N L := by
  have h := comp_mono L g h
  unfold classes
  have : N.image (comp g) ⊆ (N.image (comp L)).image (comp g) := by
    intro r hr
    obtain ⟨x, hx, rfl⟩ := Finset.mem_image.mp hr
    refine Finset.mem_image.mpr ⟨comp L x, Finset.mem_image_of_mem _ hx, ?_⟩
    exact h _ _ (comp_comp L x)
  exact (Finset.card_le_card this).trans Finset.card_image_le

theorem forest_filter (L : List (α × α)) (p : α × α → Bool) (hf : IsForest L) : IsForest (L.filter p) := by
  induction L with
  | nil => trivial
  | cons e L ih =>
    obtain ⟨a, b⟩ := e
    rw [List.filter_cons]
    split
    · exact ⟨fun h => hf.1 (comp_subset (fun e he => (List.mem_filter.mp he).1) _ _ h), ih hf.2⟩
    · exact ih hf.2

/-- a forest whose edges lie in a nonempty `S` has fewer edges than `S` has nodes -/
theorem forest_lt (S : Finset α) (L : List (α × α)) (h : ∀ e ∈ L, e.1 ∈ S ∧ e.2 ∈ S) (hf : IsForest L) (hS : S.Nonempty) :
    L.length + 1 ≤ S.card := by
  have h1 := forest_classes S L h hf
  have h2 : 0 < classes S L := Finset.card_pos.mpr (hS.image _)
  omega

/-- … and connects all of `S` when it has one edge less -/
theorem forest_connects (S : Finset α) (L : List (α × α)) (h : ∀ e ∈ L, e.1 ∈ S ∧ e.2 ∈ S) (hf : IsForest L)
    (hS : S.card ≤ L.length + 1) : ∀ x ∈ S, ∀ y ∈ S, comp L x = comp L y := by
  have h1 := forest_classes S L h hf
  have h2 : (S.image (comp L)).card ≤ 1 := by unfold classes at h1; omega
  intro x hx y hy
  exact Finset.card_le_one.mp h2 _ (Finset.mem_image_of_mem _ hx) _ (Finset.mem_image_of_mem _ hy)

/-- replacing nodes by an injective function -/
theorem comp_map {β : Type} [DecidableEq β] (f : α → β) (L : List (α × α)) (N : Finset α) (hL : ∀ e ∈ L, e.1 ∈ N ∧ e.2 ∈ N)
    (hf : ∀ x ∈ N, ∀ y ∈ N, f x = f y → x = y) : ∀ x ∈ N, comp (L.map (fun e => (f e.1, f e.2))) (f x) = f (comp L x) := by
  induction L with
  | nil => intro x hx; rfl
  | cons e L ih =>
    obtain ⟨a, b⟩ := e
    have hL' : ∀ e ∈ L, e.1 ∈ N ∧ e.2 ∈ N := fun e he => hL e (List.mem_cons_of_mem _ he)
    have ih := ih hL'
    have hab := hL (a, b) (List.mem_cons_self ..)
    have hm := comp_mem L N hL'
    intro x hx
    simp only [List.map_cons]
    rw [comp_cons, comp_cons, ih x hx, ih b hab.2, ih a hab.1]
    by_cases h : comp L x = comp L b
    · rw [if_pos h, if_pos (by rw [h])]
    · rw [if_neg h, if_neg (fun e => h (hf _ (hm x hx) _ (hm b hab.2) e))]

theorem forest_map {β : Type} [DecidableEq β] (f : α → β) (L : List (α × α)) (N : Finset α) (hL : ∀ e ∈ L, e.1 ∈ N ∧ e.2 ∈ N)
    (hf : ∀ x ∈ N, ∀ y ∈ N, f x = f y → x = y) (h : IsForest L) : IsForest (L.map (fun e => (f e.1, f e.2))) := by
  induction L with
  | nil => trivial
  | cons e L ih =>
    obtain ⟨a, b⟩ := e
    have hL' : ∀ e ∈ L, e.1 ∈ N ∧ e.2 ∈ N := fun e he => hL e (List.mem_cons_of_mem _ he)
    have hab := hL (a, b) (List.mem_cons_self ..)
    refine ⟨?_, ih hL' h.2⟩
    simp only
    rw [comp_map f L N hL' hf a hab.1, comp_map f L N hL' hf b hab.2]
    exact fun e => h.1 (hf _ (comp_mem L N hL' a hab.1) _ (comp_mem L N hL' b hab.2) e)

end comp

/-! ## Edges between sets, weighted by the size of the intersection -/

abbrev VSet := Finset Nat

/-- the edges all of whose ends contain `v` -/
def edgesAt (v : Nat) (L : List (VSet × VSet)) : List (VSet × VSet) := L.filter (fun e => decide (v ∈ e.1 ∧ v ∈ e.2))

/-- the edges of weight at least `k` -/
def edgesGe (k : Nat) (L : List (VSet × VSet)) : List (VSet × VSet) := L.filter (fun e => decide (k ≤ (e.1 ∩ e.2).card))

def weight (L : List (VSet × VSet)) : Nat := (L.map (fun e => (e.1 ∩ e.2).card)).sum

theorem weight_at (U : Finset Nat) (L : List (VSet × VSet)) (h : ∀ e ∈ L, e.1 ∩ e.2 ⊆ U) :
    weight L = ∑ v ∈ U, (edgesAt v L).length := by
  induction L with
  | nil => simp [weight, edgesAt]
  | cons e L ih =>
    have ih := ih (fun e he => h e (List.mem_cons_of_mem _ he))
    have hU := h e (List.mem_cons_self ..)
    have e1 : weight (e :: L) = (e.1 ∩ e.2).card + weight L := by simp [weight]
    rw [e1, ih]
    have : ∀ v ∈ U, (edgesAt v (e :: L)).length = (if v ∈ e.1 ∩ e.2 then 1 else 0) + (edgesAt v L).length := by
      intro v _
      unfold edgesAt
      rw [List.filter_cons]
      by_cases hv : v ∈ e.1 ∧ v ∈ e.2
      · simp [hv]; omega
      · rw [if_neg (by simpa using hv), if_neg (by simpa using hv)]; omega
    rw [Finset.sum_congr rfl this, Finset.sum_add_distrib, ← Finset.card_filter]
    congr 2
    ext v
    simp only [Finset.mem_filter]
    exact ⟨fun hv => ⟨hU hv, hv⟩, fun hv => hv.2⟩

theorem weight_ge (m : Nat) (L : List (VSet × VSet)) (h : ∀ e ∈ L, (e.1 ∩ e.2).card ≤ m) :
    weight L = ∑ k ∈ Finset.range m, (edgesGe (k + 1) L).length := by
  induction L with
  | nil => simp [weight, edgesGe]
  | cons e L ih =>
    have ih := ih (fun e he => h e (List.mem_cons_of_mem _ he))
    have hU := h e (List.mem_cons_self ..)
    have e1 : weight (e :: L) = (e.1 ∩ e.2).card + weight L := by simp [weight]
    rw [e1, ih]
    have : ∀ k ∈ Finset.range m, (edgesGe (k + 1) (e :: L)).length =
        (if k + 1 ≤ (e.1 ∩ e.2).card then 1 else 0) + (edgesGe (k + 1) L).length := by
      intro k _
      unfold edgesGe
      rw [List.filter_cons]
      by_cases hv : k + 1 ≤ (e.1 ∩ e.2).card
      · simp only [hv, decide_true, if_true, List.length_cons]; omega
      · simp only [hv, decide_false, if_false, Bool.false_eq_true]; omega
    rw [Finset.sum_congr rfl this, Finset.sum_add_distrib, ← Finset.card_filter]
    congr 1
    have : (Finset.range m).filter (fun k => k + 1 ≤ (e.1 ∩ e.2).card) = Finset.range (e.1 ∩ e.2).card := by
      ext k
      simp only [Finset.mem_filter, Finset.mem_range]
      omega
    rw [this, Finset.card_range]

/-- The edges `L` connect whatever an edge of weight `k` could connect using only edges of weight `k` or more:
what adding edges in order of decreasing weight achieves. -/
def Greedy (N : Finset VSet) (L : List (VSet × VSet)) : Prop :=
  ∀ k, ∀ x ∈ N, ∀ y ∈ N, k ≤ (x ∩ y).card → comp (edgesGe k L) x = comp (edgesGe k L) y

/-- A greedy spanning forest weighs at least as much as any forest. -/
theorem greedy_max (N : Finset VSet) (L J : List (VSet × VSet)) (hL : ∀ e ∈ L, e.1 ∈ N ∧ e.2 ∈ N) (hJ : ∀ e ∈ J, e.1 ∈ N ∧ e.2 ∈ N)
    (fL : IsForest L) (fJ : IsForest J) (hg : Greedy N L) : weight J ≤ weight L := by
  obtain ⟨m, hm⟩ : ∃ m, ∀ e : VSet × VSet, e.1 ∈ N ∧ e.2 ∈ N → (e.1 ∩ e.2 : VSet).card ≤ m := by
    refine ⟨N.sup Finset.card, fun e he => ?_⟩
    exact (Finset.card_le_card Finset.inter_subset_left).trans (Finset.le_sup (f := Finset.card) he.1)
  rw [weight_ge m L (fun e he => hm e (hL e he)), weight_ge m J (fun e he => hm e (hJ e he))]
  apply Finset.sum_le_sum
  intro k _
  have sL : ∀ e ∈ edgesGe (k + 1) L, e.1 ∈ N ∧ e.2 ∈ N := fun e he => hL e (List.mem_filter.mp he).1
  have sJ : ∀ e ∈ edgesGe (k + 1) J, e.1 ∈ N ∧ e.2 ∈ N := fun e he => hJ e (List.mem_filter.mp he).1
  have h1 := forest_classes N _ sL (forest_filter L _ fL)
  have h2 := forest_classes N _ sJ (forest_filter J _ fJ)
  have h3 : classes N (edgesGe (k + 1) L) ≤ classes N (edgesGe (k + 1) J) := by
    apply classes_le N
    intro e he
    have hw := (List.mem_filter.mp he).2
    simp only [decide_eq_true_eq] at hw
    exact hg _ _ (sJ e he).1 _ (sJ e he).2 hw
  unfold edgesGe at h1 h2 h3 ⊢
  omega

/-- If some forest has enough edges at every variable, a greedy forest connects, for every variable, the sets that
contain it, using only sets that contain it. -/
theorem greedy_junction (N : Finset VSet) (L J : List (VSet × VSet)) (hL : ∀ e ∈ L, e.1 ∈ N ∧ e.2 ∈ N)
    (hJ : ∀ e ∈ J, e.1 ∈ N ∧ e.2 ∈ N) (fL : IsForest L) (fJ : IsForest J) (hg : Greedy N L)
    (hj : ∀ v, (N.filter (v ∈ ·)).card ≤ (edgesAt v J).length + 1) :
    ∀ v, ∀ x ∈ N, ∀ y ∈ N, v ∈ x → v ∈ y → comp (edgesAt v L) x = comp (edgesAt v L) y := by
  have hw := greedy_max N L J hL hJ fL fJ hg
  let U : Finset Nat := N.biUnion id
  have hU : ∀ x ∈ N, x ⊆ U := fun x hx v hv => Finset.mem_biUnion.mpr ⟨x, hx, hv⟩
  rw [weight_at U L (fun e he => Finset.inter_subset_left.trans (hU _ (hL e he).1)),
    weight_at U J (fun e he => Finset.inter_subset_left.trans (hU _ (hJ e he).1))] at hw
  have sL : ∀ v, ∀ e ∈ edgesAt v L, e.1 ∈ N.filter (v ∈ ·) ∧ e.2 ∈ N.filter (v ∈ ·) := by
    intro v e he
    have h1 := List.mem_filter.mp he
    have h2 := hL e h1.1
    have h3 := h1.2
    simp only [decide_eq_true_eq] at h3
    exact ⟨Finset.mem_filter.mpr ⟨h2.1, h3.1⟩, Finset.mem_filter.mpr ⟨h2.2, h3.2⟩⟩
  have hle : ∀ v ∈ U, (edgesAt v L).length ≤ (edgesAt v J).length := by
    intro v hv
    obtain ⟨x, hx, hvx⟩ := Finset.mem_biUnion.mp hv
    have := forest_lt (N.filter (v ∈ ·)) _ (sL v) (forest_filter L _ fL) ⟨x, Finset.mem_filter.mpr ⟨hx, hvx⟩⟩
    have := hj v
    unfold edgesAt at *
    omega
  have heq : ∀ v ∈ U, (edgesAt v L).length = (edgesAt v J).length :=
    (Finset.sum_eq_sum_iff_of_le hle).mp (le_antisymm (Finset.sum_le_sum hle) hw)
  intro v x hx y hy hvx hvy
  have hv : v ∈ U := hU x hx hvx
  apply forest_connects (N.filter (v ∈ ·)) _ (sL v) (forest_filter L _ fL)
  · have h1 := hj v
    have h2 := heq v hv
    rw [← h2] at h1
    exact h1
  · exact Finset.mem_filter.mpr ⟨hx, hvx⟩
  · exact Finset.mem_filter.mpr ⟨hy, hvy⟩

end Nip
