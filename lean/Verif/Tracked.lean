import Verif.Spec.Accuracy
import Verif.Homomorphism
import Mathlib.Tactic.Linarith
import Mathlib.Tactic.Positivity
import Mathlib.Tactic.Ring
import Mathlib.Tactic.FieldSimp
import Mathlib.Order.WellFounded
import Mathlib.Data.Prod.Lex
import Mathlib.SetTheory.Cardinal.Order

/-!
# An arithmetic that does a calculation exactly and on every machine at once

A number of this arithmetic is an exact number that is not negative, the number each machine has in its place, and how many roundings have
piled up.  Addition, multiplication and division (by a number that is not zero) increase relative errors by no more than what the count tells.
-/

namespace Nip

open Spec

variable {K : Type} [Field K] [LinearOrder K] [IsStrictOrderedRing K]

/-- A machine and a bound for its relative errors. -/
structure Accuracy (K : Type) [Field K] [LinearOrder K] where
  R : Rounding K
  e : K
  ok : Accurate R e

namespace Accuracy

/-- The largest factor by which one rounding changes a number. -/
def q (A : Accuracy K) : K := 1 + A.e

theorem one_le (A : Accuracy K) : 1 ≤ A.q := by
  have := A.ok.nonneg
  unfold q
  linarith

theorem pow_one_le (A : Accuracy K) (n : Nat) : 1 ≤ A.q ^ n := one_le_pow₀ A.one_le

theorem q_pos (A : Accuracy K) : 0 < A.q := lt_of_lt_of_le one_pos A.one_le

theorem fl_nonneg (A : Accuracy K) {x : K} (h : 0 ≤ x) : 0 ≤ A.R.fl x := by
  have h1 := (A.ok.near x h).2
  have h2 := A.q_pos
  by_contra hn
  have : A.R.fl x * (1 + A.e) < 0 := mul_neg_of_neg_of_pos (not_le.mp hn) h2
  linarith

end Accuracy

theorem within_mono {a b q r : K} (ha : 0 ≤ a) (hb : 0 ≤ b) (h : Within q a b) (hq : q ≤ r) : Within r a b :=
  ⟨h.1.trans (mul_le_mul_of_nonneg_left hq hb), h.2.trans (mul_le_mul_of_nonneg_left hq ha)⟩

theorem within_trans {a b c q r : K} (hq : 0 ≤ q) (hr : 0 ≤ r) (h1 : Within q a b) (h2 : Within r b c) : Within (r * q) a c := by
  constructor
  · calc a ≤ b * q := h1.1
      _ ≤ (c * r) * q := mul_le_mul_of_nonneg_right h2.1 hq
      _ = c * (r * q) := by ring
  · calc c ≤ b * r := h2.2
      _ ≤ (a * q) * r := mul_le_mul_of_nonneg_right h1.2 hr
      _ = a * (r * q) := by ring

theorem within_add {a b c d q : K} (h1 : Within q a b) (h2 : Within q c d) : Within q (a + c) (b + d) :=
  ⟨by rw [add_mul]; exact add_le_add h1.1 h2.1, by rw [add_mul]; exact add_le_add h1.2 h2.2⟩

theorem within_mul {a b c d q r : K} (ha : 0 ≤ a) (hb : 0 ≤ b) (hc : 0 ≤ c) (hd : 0 ≤ d) (hq : 0 ≤ q) (h1 : Within q a b) (h2 : Within r c d) :
    Within (q * r) (a * c) (b * d) := by
  constructor
  · calc a * c ≤ (b * q) * (d * r) := mul_le_mul h1.1 h2.1 hc (mul_nonneg hb hq)
      _ = b * d * (q * r) := by ring
  · calc b * d ≤ (a * q) * (c * r) := mul_le_mul h1.2 h2.2 hd (mul_nonneg ha hq)
      _ = a * c * (q * r) := by ring

theorem within_inv {a b q : K} (ha : 0 < a) (hb : 0 < b) (h : Within q a b) : Within q a⁻¹ b⁻¹ := by
  constructor
  · rw [inv_mul_eq_div, le_div_iff₀ hb, inv_mul_le_iff₀ ha]
    exact h.2
  · rw [inv_mul_eq_div, le_div_iff₀ ha, inv_mul_le_iff₀ hb]
    exact h.1

theorem within_zero {a b q : K} (h : Within q a b) (hb : b = 0) (ha : 0 ≤ a) : a = 0 := by
  have := h.1
  rw [hb, zero_mul] at this
  exact le_antisymm this ha

theorem within_symm {a b q : K} (h : Within q a b) : Within q b a := ⟨h.2, h.1⟩

theorem within_refl (a : K) (ha : 0 ≤ a) {q : K} (hq : 1 ≤ q) : Within q a a := by
  have : a ≤ a * q := le_mul_of_one_le_right ha hq
  exact ⟨this, this⟩

/-- after one more rounding -/
theorem Accuracy.within_fl (A : Accuracy K) {x a : K} {n : Nat} (hx : 0 ≤ x) (h : Within (A.q ^ n) x a) : Within (A.q ^ (n + 1)) (A.R.fl x) a := by
  have := within_trans A.q_pos.le (pow_pos A.q_pos n).le (A.ok.near x hx) h
  rwa [pow_succ]

/-- An exact number that is not negative, the numbers of the machines, and how many roundings they differ at most. -/
@[ext] structure Tracked {ι : Type} (acc : ι → Accuracy K) where
  exact : K
  rounded : ι → K
  count : Nat
  exact_nonneg : 0 ≤ exact
  rounded_nonneg : ∀ A, 0 ≤ rounded A
  near : ∀ A, Within ((acc A).q ^ count) (rounded A) exact
  none : exact = 0 → count = 0

namespace Tracked

variable {ι : Type} {acc : ι → Accuracy K}

theorem rounded_zero (a : Tracked acc) (A : ι) : a.rounded A = 0 ↔ a.exact = 0 :=
  ⟨fun h => within_zero (within_symm (a.near A)) h a.exact_nonneg, fun h => within_zero (a.near A) h (a.rounded_nonneg A)⟩

theorem up (a : Tracked acc) (A : ι) {n : Nat} (h : a.count ≤ n) : Within ((acc A).q ^ n) (a.rounded A) a.exact :=
  within_mono (a.rounded_nonneg A) a.exact_nonneg (a.near A) (pow_le_pow_right₀ (acc A).one_le h)

open Classical in
/-- One more rounding of numbers that are near to an exact one. -/
noncomputable def round (x : K) (hx : 0 ≤ x) (r : ι → K) (hr : ∀ A, 0 ≤ r A) (n : Nat) (h : ∀ A, Within ((acc A).q ^ n) (r A) x) : Tracked acc where
  exact := x
  rounded := fun A => (acc A).R.fl (r A)
  count := if x = 0 then 0 else n + 1
  exact_nonneg := hx
  rounded_nonneg := fun A => (acc A).fl_nonneg (hr A)
  near := by
    intro A
    split
    · rename_i h0
      have h1 : r A = 0 := within_zero (h A) h0 (hr A)
      rw [h0, h1, (acc A).R.zero, pow_zero]
      exact within_refl 0 le_rfl le_rfl
    · exact (acc A).within_fl (hr A) (h A)
  none := fun h => by rw [if_pos h]

/-- A number without errors. -/
def plain (x : K) (hx : 0 ≤ x) : Tracked acc where
  exact := x
  rounded := fun _ => x
  count := 0
  exact_nonneg := hx
  rounded_nonneg := fun _ => hx
  near := fun A => by rw [pow_zero]; exact within_refl x hx le_rfl
  none := fun _ => rfl

instance : Zero (Tracked acc) := ⟨plain 0 le_rfl⟩
instance : One (Tracked acc) := ⟨plain 1 zero_le_one⟩

noncomputable instance : Add (Tracked acc) := ⟨fun a b => round (a.exact + b.exact) (add_nonneg a.exact_nonneg b.exact_nonneg)
  (fun A => a.rounded A + b.rounded A) (fun A => add_nonneg (a.rounded_nonneg A) (b.rounded_nonneg A)) (max a.count b.count)
  (fun A => within_add (a.up A (le_max_left _ _)) (b.up A (le_max_right _ _)))⟩

noncomputable instance : Mul (Tracked acc) := ⟨fun a b => round (a.exact * b.exact) (mul_nonneg a.exact_nonneg b.exact_nonneg)
  (fun A => a.rounded A * b.rounded A) (fun A => mul_nonneg (a.rounded_nonneg A) (b.rounded_nonneg A)) (a.count + b.count)
  (fun A => by
    rw [pow_add]
    exact within_mul (a.rounded_nonneg A) a.exact_nonneg (b.rounded_nonneg A) b.exact_nonneg (pow_pos (acc A).q_pos _).le (a.near A) (b.near A))⟩

noncomputable instance : Div (Tracked acc) := ⟨fun a b => round (a.exact / b.exact) (div_nonneg a.exact_nonneg b.exact_nonneg)
  (fun A => a.rounded A / b.rounded A) (fun A => div_nonneg (a.rounded_nonneg A) (b.rounded_nonneg A)) (a.count + b.count)
  (fun A => by
    rw [pow_add]
    by_cases h : b.exact = 0
    · rw [h, (b.rounded_zero A).2 h, div_zero, div_zero]
      exact within_refl 0 le_rfl (by rw [← pow_add]; exact (acc A).pow_one_le _)
    · have h1 : 0 < b.exact := lt_of_le_of_ne b.exact_nonneg (Ne.symm h)
      have h2 : 0 < b.rounded A := lt_of_le_of_ne (b.rounded_nonneg A) (fun g => h ((b.rounded_zero A).1 g.symm))
      rw [div_eq_mul_inv, div_eq_mul_inv]
      exact within_mul (a.rounded_nonneg A) a.exact_nonneg (inv_pos.2 h2).le (inv_pos.2 h1).le (pow_pos (acc A).q_pos _).le (a.near A) (within_inv h2 h1 (b.near A)))⟩

/-- Not used. -/
instance : Sub (Tracked acc) := ⟨fun _ _ => 0⟩

theorem eq_zero (a : Tracked acc) : a = 0 ↔ a.exact = 0 := by
  constructor
  · rintro rfl
    rfl
  · intro h
    refine Tracked.ext h ?_ (a.none h)
    funext A
    exact (a.rounded_zero A).2 h

/-- some order of all numbers -/
def Any {ι : Type} (acc : ι → Accuracy K) := Tracked acc

noncomputable instance : LinearOrder (Any acc) := IsWellOrder.linearOrder WellOrderingRel

/-- for comparing -/
def key (a : Tracked acc) : K ×ₗ Any acc := toLex (a.exact, a)

/-- Numbers are compared by their exact parts first. -/
noncomputable instance : LinearOrder (Tracked acc) :=
  LinearOrder.lift' key fun _ _ h => (Prod.mk.inj (toLex.injective h)).2

theorem pos_iff (a : Tracked acc) : 0 < a ↔ 0 < a.exact := by
  have h : 0 < a ↔ key 0 < key a := Iff.rfl
  rw [h]
  unfold key
  rw [Prod.Lex.toLex_lt_toLex]
  constructor
  · rintro (h | ⟨h1, h2⟩)
    · exact h
    · have : a = 0 := (eq_zero a).2 h1.symm
      subst this
      exact absurd h2 (lt_irrefl _)
  · exact Or.inl

/-- The exact number. -/
theorem hom_exact : Hom (exact : Tracked acc → K) where
  zero := rfl
  one := rfl
  add := fun _ _ => rfl
  mul := fun _ _ => rfl
  div := fun _ _ _ => rfl
  isZero := fun a => (eq_zero a).symm
  pos := fun a => (pos_iff a).symm

/-- What the machine has. -/
def onMachine (A : ι) (a : Tracked acc) : Machine K (acc A).R := .num (a.rounded A)

theorem hom_machine (A : ι) : Hom (onMachine A : Tracked acc → Machine K (acc A).R) where
  zero := rfl
  one := rfl
  add := fun _ _ => rfl
  mul := fun _ _ => rfl
  div := by
    intro a b h
    have h1 : b.rounded A ≠ 0 := fun g => h ((eq_zero b).2 ((b.rounded_zero A).1 g))
    show _ = if (Machine.num (b.rounded A) : Machine K (acc A).R) = .num 0 then Machine.nan else _
    rw [if_neg (fun g => h1 (Machine.num.inj g))]
    rfl
  isZero := by
    intro a
    rw [eq_zero, ← a.rounded_zero A]
    exact ⟨fun g => Machine.num.inj g, fun g => congrArg Machine.num g⟩
  pos := by
    intro a
    rw [pos_iff]
    have h : 0 < onMachine A a ↔ ((0 : K) : WithBot K) < ((a.rounded A : K) : WithBot K) := Iff.rfl
    rw [h, WithBot.coe_lt_coe]
    have h1 := a.rounded_zero A
    constructor
    · intro g
      exact lt_of_le_of_ne a.exact_nonneg fun e => g.ne' (h1.2 e.symm)
    · intro g
      exact lt_of_le_of_ne (a.rounded_nonneg A) fun e => g.ne' (h1.1 e.symm)

open Classical in
/-- A number given to the program, for which each machine has one that is near. -/
noncomputable def given (x : K) (hx : 0 ≤ x) (r : ι → K) (hr : ∀ A, 0 ≤ r A) (n : Nat) (h : ∀ A, Within ((acc A).q ^ n) (r A) x) : Tracked acc where
  exact := x
  rounded := r
  count := if x = 0 then 0 else n
  exact_nonneg := hx
  rounded_nonneg := hr
  near := by
    intro A
    split
    · rename_i h0
      have h1 : r A = 0 := within_zero (h A) h0 (hr A)
      rw [h0, h1, pow_zero]
      exact within_refl 0 le_rfl le_rfl
    · exact h A
  none := fun h => by rw [if_pos h]

/-- Numbers given to the program. -/
theorem given_list (n : Nat) : ∀ (l : List K), (∀ a ∈ l, 0 ≤ a) → ∀ (r : ∀ A, List (Machine K (acc A).R)), (∀ A, List.Forall₂ (Machine.Near ((acc A).q ^ n)) (r A) l) →
    ∃ t : List (Tracked acc), t.map exact = l ∧ ∀ A, t.map (onMachine A) = r A := by
  intro l
  induction l with
  | nil =>
    intro _ r hr
    exact ⟨[], rfl, fun A => (List.forall₂_nil_right_iff.1 (hr A)).symm⟩
  | cons a l ih =>
    intro hl r hr
    have h1 : ∀ A, ∃ b rest, r A = Machine.num b :: rest ∧ 0 ≤ b ∧ Within ((acc A).q ^ n) b a ∧ List.Forall₂ (Machine.Near ((acc A).q ^ n)) rest l := by
      intro A
      obtain ⟨x, rest, ⟨b, h1, h2, h3⟩, h4, h5⟩ := List.forall₂_cons_right_iff.1 (hr A)
      exact ⟨b, rest, by rw [h5, h1], h2, h3, h4⟩
    choose b rest e1 e2 e3 e4 using h1
    obtain ⟨t, g1, g2⟩ := ih (fun a ha => hl a (by simp [ha])) rest e4
    refine ⟨given a (hl a (by simp)) b e2 n e3 :: t, ?_, fun A => ?_⟩
    · rw [List.map_cons, g1]
      rfl
    · rw [List.map_cons, g2, e1]
      rfl

theorem counted (l : List (Tracked acc)) : ∃ n, ∀ a ∈ l, a.count ≤ n := by
  induction l with
  | nil => exact ⟨0, by simp⟩
  | cons a l ih =>
    obtain ⟨n, h⟩ := ih
    refine ⟨max a.count n, fun b hb => ?_⟩
    rcases List.mem_cons.1 hb with rfl | hb
    · exact le_max_left _ _
    · exact (h b hb).trans (le_max_right _ _)

theorem near_list {n : Nat} {l : List (Tracked acc)} (h : ∀ a ∈ l, a.count ≤ n) (A : ι) :
    List.Forall₂ (Machine.Near ((acc A).q ^ n)) (l.map (onMachine A)) (l.map exact) := by
  induction l with
  | nil => exact List.Forall₂.nil
  | cons a l ih =>
    exact List.Forall₂.cons ⟨a.rounded A, rfl, a.rounded_nonneg A, a.up A (h a (by simp))⟩ (ih fun b hb => h b (by simp [hb]))

end Tracked
end Nip
