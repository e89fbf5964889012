import Mathlib.Algebra.Order.Field.Basic

/-!
# Specification vocabulary: numbers of a machine that rounds

Nothing here refers to the model of the C code.
-/

namespace Nip.Spec

/-- What is asked of the rounding of a machine: larger numbers are not rounded to smaller ones, the numbers 0 and 1 are numbers of the machine, and
rounding a second time changes nothing.  Rounding to the nearest `double` (or downwards, upwards, towards zero; with or without gradual
underflow) is of this kind as long as no number is too large. -/
structure Rounding (K : Type) [Field K] [LinearOrder K] where
  fl : K → K
  mono : ∀ a b, a ≤ b → fl a ≤ fl b
  zero : fl 0 = 0
  one : fl 1 = 1
  idem : ∀ a, fl (fl a) = fl a

/-- What a variable of type `double` holds: a number, or something that is not a number. -/
inductive Machine (K : Type) [Field K] [LinearOrder K] (R : Rounding K) where
  | num (a : K)
  | nan
deriving DecidableEq

namespace Machine

variable {K : Type} [Field K] [LinearOrder K] {R : Rounding K}

/-- Exact result, then rounding. -/
def lift (f : K → K → K) : Machine K R → Machine K R → Machine K R
  | num a, num b => num (R.fl (f a b))
  | _, _ => nan

instance : Zero (Machine K R) := ⟨num 0⟩
instance : One (Machine K R) := ⟨num 1⟩
instance : Add (Machine K R) := ⟨lift (· + ·)⟩
instance : Sub (Machine K R) := ⟨lift (· - ·)⟩
instance : Mul (Machine K R) := ⟨lift (· * ·)⟩
/-- Division by zero does not give a number. -/
instance : Div (Machine K R) := ⟨fun a b => if b = num 0 then nan else lift (· / ·) a b⟩

/-- Numbers are compared as numbers.  (What comparisons with `nan` give is not used.) -/
def toOption : Machine K R → WithBot K
  | num a => (a : WithBot K)
  | nan => ⊥

theorem toOption_injective : Function.Injective (toOption (R := R)) := by
  intro a b h
  cases a <;> cases b <;> simp_all [toOption]

instance : LinearOrder (Machine K R) := LinearOrder.lift' toOption toOption_injective

/-- A number of the machine that is not negative. -/
def Sound (x : Machine K R) : Prop := ∃ a : K, x = num a ∧ 0 ≤ a ∧ R.fl a = a

/-- A number of the machine from 0 to 1. -/
def IsProbability (x : Machine K R) : Prop := ∃ a : K, x = num a ∧ 0 ≤ a ∧ a ≤ 1

end Machine

end Nip.Spec
