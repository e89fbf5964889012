import Mathlib.Tactic.ApplyFun
import Mathlib.Tactic.Push
import Verif.Spec.Tokens

/-! # Lemmas about the tokeniser -/

namespace Nip

open Res

theorem whitespace_eq (c : Char) : Spec.whitespace c = isSpace c := by
  have key : ∀ d : Char, (c == d) = decide (c.toNat = d.toNat) := by
    intro d
    by_cases h : c = d
    · simp [h]
    · have : c.toNat ≠ d.toNat := fun hn => h (Char.toNat_inj.mp hn)
      simp [h, this]
  unfold Spec.whitespace isSpace
  simp only [List.contains_cons, List.contains_nil, key, Bool.or_false]
  have h1 : (' ' : Char).toNat = 32 := rfl
  have h2 : ('\t' : Char).toNat = 9 := rfl
  have h3 : ('\n' : Char).toNat = 10 := rfl
  have h4 : (Char.ofNat 11).toNat = 11 := rfl
  have h5 : (Char.ofNat 12).toNat = 12 := rfl
  have h6 : ('\r' : Char).toNat = 13 := rfl
  rw [h1, h2, h3, h4, h5, h6, Bool.eq_iff_iff]
  simp only [Bool.or_eq_true, decide_eq_true_eq, Bool.and_eq_true]
  omega

/-- the tokeniser without an array: finished tokens, start of the current one -/
structure PS where
  done : List (Nat × Nat)
  start : Nat
  state : Nat
  found : Bool

namespace PS

def flat (l : List (Nat × Nat)) : List Nat := l.flatMap (fun q => [q.1, q.2])

/-- the indices written -/
def out (p : PS) : List Nat := flat p.done ++ if p.state = 0 then [] else [p.start]

/-- number of tokens begun -/
def begun (p : PS) : Nat := p.done.length + if p.state = 0 then 0 else 1

theorem flat_length (l : List (Nat × Nat)) : (flat l).length = 2 * l.length := by
  induction l with
  | nil => rfl
  | cons a l ih => rw [flat, List.flatMap_cons, List.length_append]; rw [flat] at ih; rw [ih, List.length_cons, List.length_cons]; simp; omega

theorem flat_append (l m : List (Nat × Nat)) : flat (l ++ m) = flat l ++ flat m := by unfold flat; rw [List.flatMap_append]

theorem out_length (p : PS) : p.out.length + (if p.state = 0 then 0 else 1) = 2 * p.begun := by
  unfold out begun
  rw [List.length_append, flat_length]
  split <;> simp <;> omega

/-- close the current token -/
def close (p : PS) (e : Nat) : PS := { p with done := p.done ++ [(p.start, e)], state := 0 }

/-- close the current token if it is not quoted -/
def close1 (p : PS) (e : Nat) : PS := if p.state == 1 then p.close e else p

end PS

/-- one character -/
def pureStep (o : TokOpt) (s : List Char) (i : Nat) (c : Char) (p : PS) : PS :=
  let p := { p with found := p.found || o.isSep c }
  if p.state != 2 && p.found then
    { done := (p.close1 i).done ++ (if o.sepTokens then [(i, i + 1)] else []), start := p.start, state := 0, found := false }
  else if o.quoted && p.state != 2 && c == '"' then
    if quoteAhead s i then { p.close1 i with start := i, state := 2 } else p
  else if p.state == 0 then
    if o.starts c then { p with start := i, state := 1 } else p
  else if (o.wspace && p.state == 1 && isSpace c) || c == '\n' then p.close i
  else if o.quoted && p.state == 2 && c == '"' then p.close (i + 1)
  else p

/-- the first `k` characters -/
def pureRun (o : TokOpt) (s : List Char) : Nat → PS
  | 0 => { done := [], start := 0, state := 0, found := false }
  | k + 1 => pureStep o s k (s.getD k ' ') (pureRun o s k)

theorem pureStep_state (o : TokOpt) (s : List Char) (i : Nat) (c : Char) (p : PS) (h : p.state ≤ 2) : (pureStep o s i c p).state ≤ 2 := by
  unfold pureStep PS.close1 PS.close
  simp only
  split_ifs <;> simp_all

theorem pureRun_state (o : TokOpt) (s : List Char) (k : Nat) : (pureRun o s k).state ≤ 2 := by
  induction k with
  | zero => simp [pureRun]
  | succ k ih => exact pureStep_state o s k _ _ ih

/-- the counter follows -/
theorem countStep_eq (o : TokOpt) (s : List Char) (i : Nat) (c : Char) (p : PS) (t : CountState) (hs : p.state ≤ 2)
    (h : t.tokens = p.begun ∧ t.state = p.state ∧ t.found = p.found) :
    (countStep o s i c t).tokens = (pureStep o s i c p).begun ∧ (countStep o s i c t).state = (pureStep o s i c p).state ∧
      (countStep o s i c t).found = (pureStep o s i c p).found := by
  obtain ⟨h1, h2, h3⟩ := h
  obtain ⟨tk, st, fd⟩ := t
  obtain ⟨dn, sr, st', fd'⟩ := p
  simp only at h1 h2 h3 hs
  subst h2 h3
  have hcases : st = 0 ∨ st = 1 ∨ st = 2 := by omega
  unfold countStep pureStep PS.close1 PS.close PS.begun
  unfold PS.begun at h1
  rcases hcases with rfl | rfl | rfl <;> simp at h1 <;> subst h1 <;> simp <;> split_ifs <;> simp_all

theorem countTokens_eq (o : TokOpt) (s : List Char) : countTokens o s = ok (pureRun o s s.length).begun := by
  unfold countTokens
  obtain ⟨t, h1, h2⟩ := loop_inv (n := s.length) (f := fun i t => do
      let c ← rd s i
      ok (countStep o s i c t)) (s := ({ tokens := 0, state := 0, found := false } : CountState))
    (fun k t => t.tokens = (pureRun o s k).begun ∧ t.state = (pureRun o s k).state ∧ t.found = (pureRun o s k).found)
    ⟨rfl, rfl, rfl⟩ (by
      intro i hi t ht
      refine ⟨countStep o s i s[i] t, by rw [rd_lt hi]; rfl, ?_⟩
      have := countStep_eq o s i s[i] (pureRun o s i) t (pureRun_state o s i) ht
      rw [pureRun, List.getD_eq_getElem?_getD, List.getElem?_eq_getElem hi]
      exact this)
  rw [h1, ok_bind, h2.1]

/-- the state with an array of the given size -/
def mkTok (size : Nat) (l : List Nat) (i st : Nat) (fd sp : Bool) : TokState :=
  { indices := l ++ List.replicate (size - l.length) 0, i := i, j := l.length, state := st, found := fd, stop := sp }

theorem wr_fill {l : List Nat} {size v : Nat} (h : l.length < size) :
    wr (l ++ List.replicate (size - l.length) 0) l.length v = ok (l ++ [v] ++ List.replicate (size - (l.length + 1)) 0) := by
  rw [wr_lt (by simp; omega)]
  congr 1
  obtain ⟨k, hk⟩ : ∃ k, size - l.length = k + 1 := ⟨size - l.length - 1, by omega⟩
  rw [hk, List.replicate_succ, show size - (l.length + 1) = k by omega]
  simp

theorem push_eq {l : List Nat} {size i st v : Nat} {fd sp : Bool} (h : l.length < size) :
    (mkTok size l i st fd sp).push v = ok (mkTok size (l ++ [v]) i st fd sp) := by
  unfold TokState.push mkTok
  simp only
  rw [wr_fill h, ok_bind]
  simp

set_option linter.unusedSimpArgs false in
set_option maxHeartbeats 2000000 in
theorem tokenStep_eq (o : TokOpt) (s : List Char) (size i : Nat) (c : Char) (p : PS) (hs : p.state ≤ 2)
    (hb : (pureStep o s i c p).out.length ≤ size) :
    tokenStep o s c (mkTok size p.out i p.state p.found false) =
      ok (mkTok size (pureStep o s i c p).out i (pureStep o s i c p).state (pureStep o s i c p).found false) := by
  obtain ⟨dn, sr, st, fd⟩ := p
  simp only at hs
  have hcases : st = 0 ∨ st = 1 ∨ st = 2 := by omega
  have f1 : ∀ a b, PS.flat [(a, b)] = [a, b] := fun _ _ => rfl
  have f0 : PS.flat [] = [] := rfl
  have f2 : ∀ a b c d, PS.flat [(a, b), (c, d)] = [a, b, c, d] := fun _ _ _ _ => rfl
  have hst : ∀ l st fd st', (mkTok size l i st fd false).setState st' = mkTok size l i st' fd false := fun _ _ _ _ => rfl
  have hfd : ∀ l st fd fd', (mkTok size l i st fd false).setFound fd' = mkTok size l i st fd' false := fun _ _ _ _ => rfl
  have hgs : ∀ l st fd, (mkTok size l i st fd false).state = st := fun _ _ _ => rfl
  have hgf : ∀ l st fd, (mkTok size l i st fd false).found = fd := fun _ _ _ => rfl
  have hgi : ∀ l st fd, (mkTok size l i st fd false).i = i := fun _ _ _ => rfl
  unfold pureStep PS.close1 PS.close PS.out at *
  unfold tokenStep
  simp only [hfd, hgs, hgf, hgi]
  generalize (fd || o.isSep c) = F at *
  generalize (c == '"') = Qc at *
  generalize (c == '\n') = Nc at *
  generalize o.quoted = Q at *
  generalize o.sepTokens = T at *
  generalize o.starts c = B at *
  generalize o.wspace = W at *
  generalize isSpace c = I at *
  generalize quoteAhead s i = A at *
  rcases hcases with rfl | rfl | rfl <;> cases F
  all_goals
    generalize hX : (W && I || Nc) = X at *
    cases Q <;> cases Qc <;> cases A <;> cases B <;> cases T <;> cases X <;> cases Nc <;>
      simp [hst, hfd, hgs, hgf, hgi, PS.flat_append, f1, f0, f2, hX] at hb ⊢ <;>
      simp (disch := ((try simp); omega)) [push_eq, hst, hfd, hgs, hgf, hgi, hX]

set_option linter.unusedSimpArgs false in
/-- the possible effects of a character -/
theorem pureStep_cases (o : TokOpt) (s : List Char) (i : Nat) (c : Char) (p : PS) (hs : p.state ≤ 2) :
    (p.state ≠ 2 ∧ (p.found || o.isSep c) = true ∧ pureStep o s i c p =
      ⟨(if p.state = 1 then p.done ++ [(p.start, i)] else p.done) ++ (if o.sepTokens then [(i, i + 1)] else []), p.start, 0, false⟩) ∨
    (p.state ≠ 2 ∧ (p.found || o.isSep c) = false ∧ o.quoted = true ∧ c = '"' ∧ quoteAhead s i = true ∧ pureStep o s i c p =
      ⟨if p.state = 1 then p.done ++ [(p.start, i)] else p.done, i, 2, false⟩) ∨
    (p.state ≠ 2 ∧ (p.found || o.isSep c) = false ∧ o.quoted = true ∧ c = '"' ∧ quoteAhead s i = false ∧ pureStep o s i c p =
      ⟨p.done, p.start, p.state, false⟩) ∨
    (p.state = 0 ∧ (p.found || o.isSep c) = false ∧ ¬ (o.quoted = true ∧ c = '"') ∧ o.starts c = true ∧ pureStep o s i c p =
      ⟨p.done, i, 1, false⟩) ∨
    (p.state = 0 ∧ (p.found || o.isSep c) = false ∧ ¬ (o.quoted = true ∧ c = '"') ∧ o.starts c = false ∧ pureStep o s i c p =
      ⟨p.done, p.start, 0, false⟩) ∨
    (p.state = 1 ∧ (p.found || o.isSep c) = false ∧ ¬ (o.quoted = true ∧ c = '"') ∧ o.starts c = false ∧ pureStep o s i c p =
      ⟨p.done ++ [(p.start, i)], p.start, 0, false⟩) ∨
    (p.state = 1 ∧ (p.found || o.isSep c) = false ∧ ¬ (o.quoted = true ∧ c = '"') ∧ o.starts c = true ∧ pureStep o s i c p =
      ⟨p.done, p.start, 1, false⟩) ∨
    (p.state = 2 ∧ c = '\n' ∧ pureStep o s i c p = ⟨p.done ++ [(p.start, i)], p.start, 0, p.found || o.isSep c⟩) ∨
    (p.state = 2 ∧ c = '"' ∧ o.quoted = true ∧ pureStep o s i c p =
      ⟨p.done ++ [(p.start, i + 1)], p.start, 0, p.found || o.isSep c⟩) ∨
    (p.state = 2 ∧ c ≠ '\n' ∧ ¬ (o.quoted = true ∧ c = '"') ∧ pureStep o s i c p =
      ⟨p.done, p.start, 2, p.found || o.isSep c⟩) := by
  obtain ⟨dn, sr, st, fd⟩ := p
  simp only at hs
  have hcases : st = 0 ∨ st = 1 ∨ st = 2 := by omega
  have hstarts : o.starts c = !((o.wspace && isSpace c) || c == '\n') := by
    unfold TokOpt.starts
    have : c = '\n' → isSpace c = true := by rintro rfl; decide
    by_cases hc : c = '\n'
    · subst hc
      cases o.wspace <;> decide
    · cases o.wspace <;> simp [hc, bne]
  have hqn : c = '"' → c ≠ '\n' := by rintro rfl; decide
  unfold pureStep PS.close1 PS.close
  simp only [hstarts]
  generalize (fd || o.isSep c) = F at *
  generalize quoteAhead s i = A at *
  by_cases hQc : c = '"'
  · have hNc := hqn hQc
    rcases hcases with rfl | rfl | rfl <;> cases F <;> cases o.quoted <;> cases A <;> cases o.wspace <;> cases isSpace c <;> simp [hQc, hNc]
  · by_cases hNc : c = '\n'
    · rcases hcases with rfl | rfl | rfl <;> cases F <;> simp [hQc, hNc]
    · rcases hcases with rfl | rfl | rfl <;> cases F <;> cases o.wspace <;> cases isSpace c <;> simp [hQc, hNc]

end Nip
