import Verif.Dynamic

/-!
# Homomorphisms between arithmetics: potentials

A map between two kinds of numbers that respects the operations and the tests of the model commutes with the functions of `Verif/Potential.lean`.
-/

namespace Nip

open Res

set_option linter.unusedSectionVars false

/-! ## outcomes -/

/-- Apply a function to the value returned. -/
def Res.on {α β : Type} (f : α → β) : Res α → Res β
  | ok a => ok (f a)
  | ub => ub

@[simp] theorem on_ok {α β : Type} (f : α → β) (a : α) : (ok a).on f = ok (f a) := rfl
@[simp] theorem on_ub {α β : Type} (f : α → β) : (ub : Res α).on f = ub := rfl
theorem on_id {α : Type} (x : Res α) : x.on id = x := by cases x <;> rfl
theorem on_on {α β γ : Type} (f : α → β) (g : β → γ) (x : Res α) : (x.on f).on g = x.on (fun a => g (f a)) := by cases x <;> rfl

/-- The rule for sequences. -/
theorem on_bind {α β γ δ : Type} {x' : Res β} {x : Res α} {f : α → β} {k' : β → Res δ} {k : α → Res γ} {h : γ → δ} (hx : x' = x.on f)
    (hk : ∀ a, k' (f a) = (k a).on h) : (x' >>= k') = (x >>= k).on h := by
  subst hx
  cases x with
  | ok a => exact hk a
  | ub => rfl

/-- The same if the first step has nothing to do with numbers. -/
theorem on_same {α γ δ : Type} {x : Res α} {k' : α → Res δ} {k : α → Res γ} {h : γ → δ} (hk : ∀ a, k' a = (k a).on h) : (x >>= k') = (x >>= k).on h := by
  cases x with
  | ok a => exact hk a
  | ub => rfl

theorem on_ite {α β : Type} {c c' : Prop} [Decidable c] [Decidable c'] {x' y' : Res β} {x y : Res α} {f : α → β} (hc : c' ↔ c) (hx : x' = x.on f)
    (hy : y' = y.on f) : (if c' then x' else y') = (if c then x else y).on f := by
  by_cases h : c
  · rw [if_pos h, if_pos (hc.2 h)]; exact hx
  · rw [if_neg h, if_neg (fun g => h (hc.1 g))]; exact hy

theorem on_rd {α β : Type} (f : α → β) (l : List α) (i : Nat) : rd (l.map f) i = (rd l i).on f := by
  unfold rd
  rw [List.getElem?_map]
  cases l[i]? <;> rfl

theorem on_wr {α β : Type} (f : α → β) (l : List α) (i : Nat) (v : α) : wr (l.map f) i (f v) = (wr l i v).on (List.map f) := by
  unfold wr
  rw [List.length_map]
  split
  · rw [on_ok, List.map_set]
  · rfl

theorem on_loop {α β : Type} {f : α → β} {n : Nat} {g' : Nat → β → Res β} {g : Nat → α → Res α} {s : α} {s' : β} (hs : s' = f s)
    (h : ∀ i s, g' i (f s) = (g i s).on f) : loop n g' s' = (loop n g s).on f := by
  subst hs
  induction n with
  | zero => rfl
  | succ n ih =>
    rw [loop_succ, loop_succ, ih]
    cases loop n g s with
    | ok a => exact h n a
    | ub => rfl

theorem on_loopDown {α β : Type} {f : α → β} {n : Nat} {g' : Nat → β → Res β} {g : Nat → α → Res α} {s : α} {s' : β} (hs : s' = f s)
    (h : ∀ i s, g' i (f s) = (g i s).on f) : loopDown n g' s' = (loopDown n g s).on f := by
  subst hs
  induction n generalizing s with
  | zero => rfl
  | succ n ih =>
    rw [loopDown_succ, loopDown_succ, h]
    cases g n s with
    | ok a => exact ih
    | ub => rfl

theorem on_foldlM {α β γ : Type} {f : α → β} {g' : β → γ → Res β} {g : α → γ → Res α} (h : ∀ s c, g' (f s) c = (g s c).on f) (l : List γ) (s : α) :
    l.foldlM g' (f s) = (l.foldlM g s).on f := by
  induction l generalizing s with
  | nil => rfl
  | cons c l ih =>
    rw [List.foldlM_cons, List.foldlM_cons]
    exact on_bind (h s c) ih

/-- The same with a list that is mapped, too. -/
theorem on_foldlM_map {α β γ δ : Type} {f : α → β} {e : γ → δ} {g' : β → δ → Res β} {g : α → γ → Res α} (h : ∀ s c, g' (f s) (e c) = (g s c).on f) (l : List γ) (s : α) :
    (l.map e).foldlM g' (f s) = (l.foldlM g s).on f := by
  induction l generalizing s with
  | nil => rfl
  | cons c l ih =>
    rw [List.map_cons, List.foldlM_cons, List.foldlM_cons]
    exact on_bind (h s c) ih

/-! ## numbers -/

/-- What a map between numbers must respect. -/
structure Hom {K L : Type} [Zero K] [One K] [Add K] [Mul K] [Div K] [LinearOrder K] [Zero L] [One L] [Add L] [Mul L] [Div L] [LinearOrder L]
    (φ : K → L) : Prop where
  zero : φ 0 = 0
  one : φ 1 = 1
  add : ∀ a b, φ (a + b) = φ a + φ b
  mul : ∀ a b, φ (a * b) = φ a * φ b
  div : ∀ a b, b ≠ 0 → φ (a / b) = φ a / φ b
  isZero : ∀ a, φ a = 0 ↔ a = 0
  pos : ∀ a, 0 < φ a ↔ 0 < a

namespace Potential

variable {K L : Type} [Zero K] [One K] [Add K] [Sub K] [Mul K] [Div K] [LinearOrder K] [Zero L] [One L] [Add L] [Sub L] [Mul L] [Div L] [LinearOrder L]

/-- All numbers of a table. -/
def on (φ : K → L) (p : Potential K) : Potential L := { card := p.card, data := p.data.map φ }

variable {φ : K → L}

@[simp] theorem on_dim (p : Potential K) : (p.on φ).dim = p.dim := rfl
@[simp] theorem on_size (p : Potential K) : (p.on φ).size = p.size := by simp [size, on]
@[simp] theorem on_card (p : Potential K) : (p.on φ).card = p.card := rfl
@[simp] theorem on_data (p : Potential K) : (p.on φ).data = p.data.map φ := rfl
theorem on_indicesOf (p : Potential K) (i : Nat) : (p.on φ).indicesOf i = p.indicesOf i := by unfold indicesOf; simp

variable (H : Hom φ)
include H

theorem on_new (card : List Nat) (d : Int) (data : Option (List K)) : new card d (data.map (List.map φ)) = (new card d data).on (Option.map (on φ)) := by
  unfold new
  refine on_ite Iff.rfl rfl ?_
  refine on_same fun n => ?_
  cases data with
  | none => simp [on, H.one]
  | some a =>
    refine on_bind (f := List.map φ) (on_loop rfl fun i acc => ?_) fun cells => ?_
    · refine on_bind (on_rd _ _ _) fun v => ?_
      simp
    · rfl

theorem on_retract (p ref : Potential K) : retract (p.on φ) (ref.on φ) = (retract p ref).on (Prod.map id (on φ)) := by
  unfold retract
  refine on_ite Iff.rfl rfl ?_
  refine on_ite Iff.rfl rfl ?_
  simp only [on_size, on_data]
  refine on_bind (f := List.map φ) (on_loop rfl fun i acc => ?_) fun cells => rfl
  exact on_bind (on_rd _ _ _) fun v => on_wr _ _ _ _

theorem on_uniform (p : Potential K) (a : K) : (p.on φ).uniform (φ a) = (p.uniform a).on φ := by
  simp [uniform, on, size]

theorem on_uniform_one (p : Potential K) : (p.on φ).uniform 1 = (p.uniform 1).on φ := by rw [← H.one, on_uniform H]
theorem on_uniform_zero (p : Potential K) : (p.on φ).uniform 0 = (p.uniform 0).on φ := by rw [← H.zero, on_uniform H]

theorem on_generalMarginalise (s d : Potential K) (mapping : List Nat) :
    generalMarginalise (s.on φ) (d.on φ) mapping = (generalMarginalise s d mapping).on (Prod.map id (on φ)) := by
  unfold generalMarginalise
  refine on_ite Iff.rfl rfl ?_
  refine on_ite Iff.rfl ?_ ?_
  · refine on_bind (f := List.map φ) (by rw [← H.zero]; exact on_wr _ _ _ _) fun d0 => ?_
    rw [on_size]
    refine on_bind (f := List.map φ) (on_loop rfl fun i d => ?_) fun cells => rfl
    refine on_bind (on_rd _ _ _) fun a => ?_
    refine on_bind (on_rd _ _ _) fun b => ?_
    rw [← H.add]
    exact on_wr _ _ _ _
  · rw [on_size, on_uniform_zero H]
    refine on_bind (f := List.map φ) (on_loop rfl fun i d => ?_) fun cells => rfl
    rw [on_indicesOf]
    refine on_same fun idx => on_same fun didx => on_same fun k => ?_
    refine on_bind (on_rd _ _ _) fun a => ?_
    refine on_bind (on_rd _ _ _) fun b => ?_
    rw [← H.add]
    exact on_wr _ _ _ _

theorem on_totalMarginalise (s : Potential K) (d : List K) (var : Int) :
    totalMarginalise (s.on φ) (d.map φ) var = (totalMarginalise s d var).on (Prod.map id (List.map φ)) := by
  unfold totalMarginalise
  refine on_ite Iff.rfl rfl ?_
  refine on_same fun c => ?_
  refine on_bind (f := List.map φ) (on_loop rfl fun i d => by rw [← H.zero]; exact on_wr _ _ _ _) fun d0 => ?_
  rw [on_size]
  refine on_bind (f := List.map φ) (on_loop rfl fun i d => ?_) fun cells => rfl
  refine on_same fun k => ?_
  refine on_bind (on_rd _ _ _) fun a => ?_
  refine on_bind (on_rd _ _ _) fun b => ?_
  rw [← H.add]
  exact on_wr _ _ _ _

theorem on_normaliseArray (r : List K) (off n : Nat) : normaliseArray (r.map φ) off n = (normaliseArray r off n).on (List.map φ) := by
  unfold normaliseArray
  refine on_bind (f := φ) (by
    refine on_loop H.zero.symm fun i s => ?_
    refine on_bind (on_rd _ _ _) fun a => ?_
    rw [← H.add]; rfl) fun sum => ?_
  by_cases h : sum = 0
  · rw [if_pos h, if_pos ((H.isZero _).2 h)]; rfl
  · rw [if_neg h, if_neg (fun g => h ((H.isZero _).1 g))]
    refine on_loop rfl fun i r => ?_
    refine on_bind (on_rd _ _ _) fun a => ?_
    rw [← H.div _ _ h]
    exact on_wr _ _ _ _

theorem on_normalise (p : Potential K) : (p.on φ).normalise = (p.normalise).on (on φ) := by
  unfold normalise
  rw [on_size]
  exact on_bind (on_normaliseArray H _ _ _) fun d => rfl

theorem on_divZero (a b : K) : divZero (φ a) (φ b) = φ (divZero a b) := by
  unfold divZero
  by_cases h : b = 0
  · rw [if_neg (by simpa [H.isZero] using h), if_neg (by simpa using h), H.zero]
  · rw [if_pos (fun g => h ((H.isZero _).1 g)), if_pos h, H.div _ _ h]

theorem on_update (n d : Option (Potential K)) (t : Potential K) (mapping : List Nat) :
    update (n.map (on φ)) (d.map (on φ)) (t.on φ) mapping = (update n d t mapping).on (Prod.map id (on φ)) := by
  have div : ∀ (t : List K) (i : Nat) (l : List K) (k : Nat),
      (do let a ← rd (t.map φ) i; let b ← rd (l.map φ) k; wr (t.map φ) i (divZero a b)) =
        (do let a ← rd t i; let b ← rd l k; wr t i (divZero a b) : Res (List K)).on (List.map φ) := by
    intro t i l k
    refine on_bind (on_rd _ _ _) fun a => on_bind (on_rd _ _ _) fun b => ?_
    rw [on_divZero H]
    exact on_wr _ _ _ _
  unfold update
  cases n with
  | none =>
    cases d with
    | none => rfl
    | some d =>
      refine on_ite Iff.rfl rfl ?_
      refine on_ite Iff.rfl ?_ ?_
      · rw [on_size]
        refine on_bind (f := List.map φ) (on_loop rfl fun i t => ?_) fun cells => rfl
        exact div _ _ _ _
      · rw [on_size]
        refine on_bind (f := List.map φ) (on_loop rfl fun i t => ?_) fun cells => rfl
        rw [on_indicesOf]
        exact on_same fun idx => on_same fun sidx => on_same fun k => div _ _ _ _
  | some n =>
    cases d with
    | none =>
      refine on_ite Iff.rfl rfl ?_
      refine on_ite Iff.rfl ?_ ?_
      · rw [on_size]
        refine on_bind (f := List.map φ) (on_loop rfl fun i t => ?_) fun cells => rfl
        refine on_bind (on_rd _ _ _) fun a => on_bind (on_rd _ _ _) fun b => ?_
        rw [← H.mul]
        exact on_bind (on_wr _ _ _ _) fun t => rfl
      · rw [on_size]
        refine on_bind (f := List.map φ) (on_loop rfl fun i t => ?_) fun cells => rfl
        rw [on_indicesOf]
        refine on_same fun idx => on_same fun sidx => on_same fun k => ?_
        refine on_bind (on_rd _ _ _) fun a => on_bind (on_rd _ _ _) fun b => ?_
        rw [← H.mul]
        exact on_bind (on_wr _ _ _ _) fun t => rfl
    | some d =>
      refine on_ite Iff.rfl rfl ?_
      refine on_ite Iff.rfl ?_ ?_
      · rw [on_size]
        refine on_bind (f := List.map φ) (on_loop rfl fun i t => ?_) fun cells => rfl
        refine on_bind (on_rd _ _ _) fun a => on_bind (on_rd _ _ _) fun b => ?_
        rw [← H.mul]
        exact on_bind (on_wr _ _ _ _) fun t => div _ _ _ _
      · rw [on_size]
        refine on_bind (f := List.map φ) (on_loop rfl fun i t => ?_) fun cells => rfl
        rw [on_indicesOf]
        refine on_same fun idx => on_same fun sidx => on_same fun k => ?_
        refine on_bind (on_rd _ _ _) fun a => on_bind (on_rd _ _ _) fun b => ?_
        rw [← H.mul]
        exact on_bind (on_wr _ _ _ _) fun t => on_same fun k => div _ _ _ _

theorem on_updateEvidence (num : List K) (den : Option (List K)) (t : Potential K) (var : Nat) :
    updateEvidence (num.map φ) (den.map (List.map φ)) (t.on φ) var = (updateEvidence num den t var).on (on φ) := by
  unfold updateEvidence
  rw [on_size]
  refine on_bind (f := List.map φ) (on_loop rfl fun i t => ?_) fun cells => rfl
  rw [on_indicesOf]
  refine on_same fun idx => on_same fun s => ?_
  refine on_bind (on_rd _ _ _) fun a => on_bind (on_rd _ _ _) fun b => ?_
  rw [← H.mul]
  refine on_bind (on_wr _ _ _ _) fun t => ?_
  cases den with
  | none => rfl
  | some den =>
    refine on_bind (on_rd _ _ _) fun d => ?_
    by_cases h : d = 0
    · rw [if_neg (by simpa [H.isZero] using h), if_neg (by simpa using h)]; rfl
    · rw [if_pos (fun g => h ((H.isZero _).1 g)), if_pos h]
      refine on_bind (on_rd _ _ _) fun a => ?_
      rw [← H.div _ _ h]
      exact on_wr _ _ _ _

theorem on_init (p t : Potential K) (mapping : Option (List Nat)) : init (p.on φ) (t.on φ) mapping = (init p t mapping).on (Prod.map id (on φ)) := by
  unfold init
  cases mapping with
  | none =>
    simp only [on_size]
    refine on_ite Iff.rfl rfl ?_
    refine on_bind (f := List.map φ) (on_loop rfl fun i t => ?_) fun cells => rfl
    refine on_bind (on_rd _ _ _) fun a => on_bind (on_rd _ _ _) fun b => ?_
    rw [← H.mul]
    exact on_wr _ _ _ _
  | some mapping =>
    refine on_ite Iff.rfl rfl ?_
    rw [on_size]
    refine on_bind (f := List.map φ) (on_loop rfl fun i t => ?_) fun cells => rfl
    rw [on_indicesOf]
    refine on_same fun idx => on_same fun sidx => on_same fun k => ?_
    refine on_bind (on_rd _ _ _) fun a => on_bind (on_rd _ _ _) fun b => ?_
    rw [← H.mul]
    exact on_wr _ _ _ _

end Potential
end Nip
