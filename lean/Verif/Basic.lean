/-!
# Outcomes, checked memory accesses and loops

Common vocabulary of the model.  A C function is modelled by a function into `Res`: either it returns
normally (`ok`), or it runs into undefined behaviour (`ub`): an access outside an array, a division of
integers by zero.  Error *codes* returned by the C functions are ordinary values inside `ok`.
-/

namespace Nip

/-- Outcome of running a C function: a normal return, or undefined behaviour. -/
inductive Res (α : Type) where
  | ok (a : α)
  | ub
deriving Repr, DecidableEq

namespace Res

/-- Sequencing: undefined behaviour is absorbing. -/
def bind {α : Type} {β : Type} : Res α → (α → Res β) → Res β
  | ok a, f => f a
  | ub, _ => ub

instance : Monad Res where
  pure := ok
  bind := Res.bind

@[simp] theorem pure_eq {α : Type} (a : α) : (pure a : Res α) = ok a := rfl
@[simp] theorem ok_bind {α β : Type} (a : α) (f : α → Res β) : (ok a >>= f) = f a := rfl
@[simp] theorem ub_bind {α β : Type} (f : α → Res β) : ((ub : Res α) >>= f) = ub := rfl
@[simp] theorem ok_bind' {α β : Type} (a : α) (f : α → Res β) : (ok a).bind f = f a := rfl
@[simp] theorem ub_bind' {α : Type} {β : Type} (f : α → Res β) : (ub : Res α).bind f = ub := rfl
@[simp] theorem ok_ne_ub {α : Type} (a : α) : (ok a : Res α) ≠ ub := by intro h; cases h
@[simp] theorem ub_ne_ok {α : Type} (a : α) : (ub : Res α) ≠ ok a := by intro h; cases h

instance : LawfulMonad Res := LawfulMonad.mk'
  (id_map := by intro α x; cases x <;> rfl)
  (pure_bind := by intros; rfl)
  (bind_assoc := by intro α β γ x f g; cases x <;> rfl)

end Res

open Res

/-- POSIX/`errno` codes used by the library (`errno.h`, `niperrorhandler.h:31-43`). -/
def ENOENT : Nat := 2
def EIO : Nat := 5
def NIP_ERROR_GENERAL : Nat := 6
def NIP_ERROR_BAD_LUCK : Nat := 8
def ENOMEM : Nat := 12
def EFAULT : Nat := 14
def EINVAL : Nat := 22
def EDOM : Nat := 33
def ERANGE : Nat := 34

/-- Checked read `a[i]`. -/
def rd {α : Type} (a : List α) (i : Nat) : Res α :=
  match a[i]? with
  | some v => ok v
  | none => ub

/-- Checked write `a[i] = v`. -/
def wr {α : Type} (a : List α) (i : Nat) (v : α) : Res (List α) :=
  if i < a.length then ok (a.set i v) else ub

/-- Integer division of C on non-negative operands: dividing by zero is undefined behaviour. -/
def divC (a b : Nat) : Res Nat := if b = 0 then ub else ok (a / b)

/-- `for(i = 0; i < n; i++) body(i)`, the state being what the body modifies. -/
def loop {σ : Type} : (n : Nat) → (Nat → σ → Res σ) → σ → Res σ
  | 0, _, s => ok s
  | n + 1, f, s => (loop n f s).bind (f n)

/-- `for(i = n - 1; i >= 0; i--) body(i)`. -/
def loopDown {σ : Type} : (n : Nat) → (Nat → σ → Res σ) → σ → Res σ
  | 0, _, s => ok s
  | n + 1, f, s => (f n s).bind (loopDown n f)

/-- `for(j = i; j < i + n; j++) if(test(j)) { result = j; break; }`: the first index passing the test. -/
def firstIdx (test : Nat → Res Bool) : (i n : Nat) → Res (Option Nat)
  | _, 0 => ok none
  | i, n + 1 => do
    let t ← test i
    if t then ok (some i) else firstIdx test (i + 1) n

section lemmas
variable {α : Type} {σ : Type}

theorem rd_lt {a : List α} {i : Nat} (h : i < a.length) : rd a i = ok a[i] := by
  simp [rd, List.getElem?_eq_getElem h]

theorem rd_ge {a : List α} {i : Nat} (h : a.length ≤ i) : rd a i = ub := by
  simp [rd, List.getElem?_eq_none h]

theorem rd_eq_ok {a : List α} {i : Nat} {v : α} : rd a i = ok v ↔ a[i]? = some v := by
  unfold rd; cases a[i]? <;> simp

theorem wr_lt {a : List α} {i : Nat} {v : α} (h : i < a.length) : wr a i v = ok (a.set i v) := by
  simp [wr, h]

theorem wr_ge {a : List α} {i : Nat} {v : α} (h : a.length ≤ i) : wr a i v = ub := by
  simp [wr, Nat.not_lt.mpr h]

theorem divC_pos {a b : Nat} (h : 0 < b) : divC a b = ok (a / b) := by
  simp [divC, Nat.pos_iff_ne_zero.mp h]

@[simp] theorem loop_zero (f : Nat → σ → Res σ) (s : σ) : loop 0 f s = ok s := rfl
theorem loop_succ (n : Nat) (f : Nat → σ → Res σ) (s : σ) :
    loop (n + 1) f s = (loop n f s).bind (f n) := rfl
@[simp] theorem loopDown_zero (f : Nat → σ → Res σ) (s : σ) : loopDown 0 f s = ok s := rfl
theorem loopDown_succ (n : Nat) (f : Nat → σ → Res σ) (s : σ) :
    loopDown (n + 1) f s = (f n s).bind (loopDown n f) := rfl

/-- Loop rule: an invariant established before the loop and preserved by the body (which then does not run into
undefined behaviour) holds after the loop. -/
theorem loop_inv (P : Nat → σ → Prop) {n : Nat} {f : Nat → σ → Res σ} {s : σ} (h0 : P 0 s)
    (step : ∀ i, i < n → ∀ s, P i s → ∃ s', f i s = ok s' ∧ P (i + 1) s') :
    ∃ s', loop n f s = ok s' ∧ P n s' := by
  induction n with
  | zero => exact ⟨s, rfl, h0⟩
  | succ n ih =>
    obtain ⟨s1, h1, hP⟩ := ih (fun i hi => step i (Nat.lt_succ_of_lt hi))
    obtain ⟨s2, h2, hP2⟩ := step n (Nat.lt_succ_self n) s1 hP
    exact ⟨s2, by rw [loop_succ, h1]; exact h2, hP2⟩

theorem loopDown_inv (P : Nat → σ → Prop) {n : Nat} {f : Nat → σ → Res σ} {s : σ} (h0 : P n s)
    (step : ∀ i, i < n → ∀ s, P (i + 1) s → ∃ s', f i s = ok s' ∧ P i s') :
    ∃ s', loopDown n f s = ok s' ∧ P 0 s' := by
  induction n generalizing s with
  | zero => exact ⟨s, rfl, h0⟩
  | succ n ih =>
    obtain ⟨s1, h1, hP⟩ := step n (Nat.lt_succ_self n) s h0
    obtain ⟨s2, h2, hP2⟩ := ih hP (fun i hi => step i (Nat.lt_succ_of_lt hi))
    exact ⟨s2, by rw [loopDown_succ, h1]; exact h2, hP2⟩

/-- Two loops with the same bodies (on the range used) are the same. -/
theorem loop_congr {n : Nat} {f g : Nat → σ → Res σ} {s : σ} (h : ∀ i, i < n → ∀ s, f i s = g i s) :
    loop n f s = loop n g s := by
  induction n with
  | zero => rfl
  | succ n ih =>
    rw [loop_succ, loop_succ, ih (fun i hi => h i (Nat.lt_succ_of_lt hi))]
    congr 1; funext s; exact h n (Nat.lt_succ_self n) s

theorem firstIdx_eq {test : Nat → Res Bool} {p : Nat → Bool} (i n : Nat)
    (h : ∀ j, i ≤ j → j < i + n → test j = ok (p j)) :
    firstIdx test i n = ok ((List.range' i n).find? p) := by
  induction n generalizing i with
  | zero => rfl
  | succ n ih =>
    unfold firstIdx
    rw [h i (Nat.le_refl _) (by omega), ok_bind, List.range'_succ, List.find?_cons,
      ih (i + 1) (fun j h1 h2 => h j (by omega) (by omega))]
    cases p i <;> simp

end lemmas

end Nip
